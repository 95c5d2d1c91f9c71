import Verif.ContainerBuild
/-
Property theorems C01-C07, C38 about the container model (Verif/Container.lean).
-/
namespace V8

/-! ## Specification vocabulary -/

/-- a source file as the user sees it (times in the container's unit of 100 µs) -/
structure SrcFile where
  name : List Char
  ctime : Nat
  mtime : Nat
  data : Bytes
deriving DecidableEq

/-- as an entry of the directory handed to the builder -/
def SrcFile.entry (s : SrcFile) : Entry := ⟨s.name, .file s.ctime s.mtime s.data⟩
/-- what a faithful reader must report for it -/
def SrcFile.expected (s : SrcFile) : File :=
  ⟨s.name, s.data.length, parseDatetime s.ctime, parseDatetime s.mtime, s.data⟩

theorem asRead_entry (s : SrcFile) : s.entry.asRead = s.expected := rfl

theorem entryLe_trans : ∀ a b c : Entry, entryLe a b → entryLe b c → entryLe a c := by
  intro a b c h1 h2
  simp only [entryLe, decide_eq_true_eq] at *
  exact List.le_trans h1 h2

theorem entryLe_total : ∀ a b : Entry, (entryLe a b || entryLe b a) = true := by
  intro a b
  simp only [entryLe, Bool.or_eq_true, decide_eq_true_eq]
  exact List.le_total a.name b.name

theorem sorted_entries (l : List Entry) : ((l.mergeSort entryLe).map (·.name)).Pairwise (· ≤ ·) := by
  have := List.pairwise_mergeSort (le := entryLe) entryLe_trans entryLe_total l
  rw [List.pairwise_map]
  exact this.imp (fun h => by simpa [entryLe] using h)

theorem read_spec (files : List SrcFile) (l : List Entry) (h : l.Perm (files.map SrcFile.entry)) :
    (l.map Entry.asRead).Perm (files.map SrcFile.expected) := by
  have := h.map Entry.asRead
  rw [List.map_map] at this
  exact this

theorem asRead_name (e : Entry) : e.asRead.name = e.name := by
  unfold Entry.asRead; split <;> rfl

/-! ## C01, C02, C04 -/

/-- **C01 / C04 (32-bit container).**  Whatever was built from one folder of plain files, if it is smaller than
2 GiB, `extract` finds exactly one container in it, and that container holds exactly the source files, in name
order, each with its bytes, size and times.  `fuel`/`steps` only bound the model's loops. -/
theorem C01_build_extract (deflate : Bytes → Bytes) (files : List SrcFile) (f : Bytes)
    (hdist : (files.map (·.name)).Nodup) (hgood : ∀ s ∈ files, GoodName s.name)
    (hb : buildFile deflate [files.map SrcFile.entry] true = .ok f) (hsz : f.length < 2 ^ 31)
    (fuel steps : Nat) (hf : f.length ≤ fuel) (hst : 2 ≤ steps) :
    ∃ out, extractLoop f fuel steps 0 = .ok [out] ∧
      out.Perm (files.map SrcFile.expected) ∧ (out.map (·.name)).Pairwise (· ≤ ·) := by
  simp only [buildFile] at hb
  cases hw : buildContainer fmt32 deflate ⟨[], 0⟩ (files.map SrcFile.entry) true 0 with
  | error e => rw [hw] at hb; cases hb
  | ok w =>
    rw [hw] at hb
    injection hb with hb
    subst hb
    obtain ⟨r, hr, hsize, hfiles⟩ := read_build fmt32 fmt32_wf deflate _ w hw hsz
      (by
        intro e he
        obtain ⟨s, hs, rfl⟩ := List.mem_map.mp he
        exact hgood s hs)
      (by rw [List.map_map]; exact hdist) fuel hf
    obtain ⟨_, hne, T, X, hbytes, hT, _⟩ := build_shape fmt32 fmt32_wf deflate _ w hw
    have hlen : 0 < w.bytes.length := by
      rw [hbytes]; simp only [List.length_append, headerBytes_length, Fmt.headerSize]; omega
    refine ⟨r.files, ?_, ?_, ?_⟩
    · obtain ⟨s, rfl⟩ : ∃ s, steps = s + 2 := ⟨steps - 2, by omega⟩
      have hd0 : detectFormat w.bytes 0 = .ok (some fmt32) := by
        unfold detectFormat
        rw [if_neg (by omega)]
        simp only [Int.toNat_zero]
        have h8 : StoredAt w.bytes 0 (leBytes 4 fmt32.marker) := by
          refine ⟨[], leBytes 4 defaultBlock ++ leBytes 4 ((files.map SrcFile.entry).mergeSort entryLe).length ++ leBytes 4 0 ++ T ++
            docsOf fmt32 ((files.map SrcFile.entry).mergeSort entryLe) ++ X, ?_, rfl⟩
          rw [hbytes]; simp [headerBytes, fmt32]
        have h9 : (readAt w.bytes 0 8).take 4 = leBytes 4 fmt32.marker := by
          have := h8.read
          simp only [leBytes_length] at this
          unfold readAt at *
          rw [List.take_take]
          exact this
        rw [h9, if_pos (by decide)]
      have hd1 : detectFormat w.bytes (0 + r.size) = .ok none := by
        unfold detectFormat
        rw [if_neg (by omega)]
        have : readAt w.bytes (0 + r.size).toNat 8 = [] := by
          unfold readAt
          rw [List.drop_eq_nil_of_le (by omega)]; rfl
        rw [this]
        rw [if_neg (by decide), if_pos rfl]
      rw [extractLoop, hd0]
      simp only [hr]
      rw [if_neg (by omega), extractLoop, hd1]
    · rw [hfiles]
      exact read_spec files _ (List.mergeSort_perm _ _)
    · rw [hfiles, List.map_map]
      have : (fun x : File => x.name) ∘ Entry.asRead = fun e : Entry => e.name := by
        funext e; exact asRead_name e
      rw [this]
      exact sorted_entries _

/-- **C04.**  `extract` on a file built from one folder finds exactly one container and then stops: two rounds of its
loop always suffice (it neither fails on trailing bytes, nor finds a second container, nor goes on for ever). -/
theorem C04_single_container (deflate : Bytes → Bytes) (files : List SrcFile) (f : Bytes)
    (hdist : (files.map (·.name)).Nodup) (hgood : ∀ s ∈ files, GoodName s.name)
    (hb : buildFile deflate [files.map SrcFile.entry] true = .ok f) (hsz : f.length < 2 ^ 31) :
    ∃ out, out.length = files.length ∧
      ∀ fuel steps, f.length ≤ fuel → 2 ≤ steps → extractLoop f fuel steps 0 = .ok [out] := by
  have h := fun fuel steps hf hst => C01_build_extract deflate files f hdist hgood hb hsz fuel steps hf hst
  have hu : ∀ (l1 l2 : List File), l1.Perm l2 → (l1.map (·.name)).Pairwise (· ≤ ·) → (l2.map (·.name)).Pairwise (· ≤ ·) →
      (l1.map (·.name)).Nodup → l1 = l2 := by
    intro l1 l2 hp h1 h2 hn
    refine List.Perm.eq_of_pairwise (le := fun a b : File => a.name ≤ b.name) ?_ (List.pairwise_map.mp h1) (List.pairwise_map.mp h2) hp
    intro a b ha hb hab hba
    have e := List.le_antisymm hab hba
    have hb' := hp.mem_iff.mpr hb
    clear h1 h2 hp hb hab hba
    induction l1 with
    | nil => cases ha
    | cons x xs ih =>
      simp only [List.map_cons, List.nodup_cons, List.mem_map, not_exists, not_and] at hn
      rcases List.mem_cons.mp ha with rfl | ha' <;> rcases List.mem_cons.mp hb' with rfl | hb'
      · rfl
      · exact absurd e.symm (hn.1 b hb')
      · exact absurd e (hn.1 a ha')
      · exact ih hn.2 ha' hb'
  obtain ⟨out, h1, h2, h3⟩ := h f.length 2 (Nat.le_refl _) (Nat.le_refl _)
  refine ⟨out, by simpa using h2.length_eq, ?_⟩
  intro fuel steps hf hst
  obtain ⟨out', h1', h2', h3'⟩ := h fuel steps hf hst
  have hexp : (files.map SrcFile.expected).map (·.name) = files.map (·.name) := by
    rw [List.map_map]; rfl
  have : out' = out := hu _ _ (h2'.trans h2.symm) h3' h3 (by
    have := (h2'.map (·.name)).nodup_iff.mpr (by rw [hexp]; exact hdist)
    exact this)
  rw [h1', this]

/-- **C02 (64-bit container at the start of a file).** -/
theorem C02_build_read64 (deflate : Bytes → Bytes) (files : List SrcFile) (w : WFile)
    (hdist : (files.map (·.name)).Nodup) (hgood : ∀ s ∈ files, GoodName s.name)
    (hb : buildContainer fmt64 deflate ⟨[], 0⟩ (files.map SrcFile.entry) true 0 = .ok w)
    (hsz : w.bytes.length < 2 ^ 63) (fuel : Nat) (hf : w.bytes.length ≤ fuel) :
    ∃ r, readContainer fmt64 fuel w.bytes 0 = .ok r ∧
      r.files.Perm (files.map SrcFile.expected) ∧ (r.files.map (·.name)).Pairwise (· ≤ ·) := by
  obtain ⟨r, hr, hsize, hfiles⟩ := read_build fmt64 fmt64_wf deflate _ w hb hsz
      (by
        intro e he
        obtain ⟨s, hs, rfl⟩ := List.mem_map.mp he
        exact hgood s hs)
      (by rw [List.map_map]; exact hdist) fuel hf
  refine ⟨r, hr, ?_, ?_⟩
  · rw [hfiles]
    exact read_spec files _ (List.mergeSort_perm _ _)
  · rw [hfiles, List.map_map]
    have : (fun x : File => x.name) ∘ Entry.asRead = fun e : Entry => e.name := by
      funext e; exact asRead_name e
    rw [this]
    exact sorted_entries _

/-- space a file takes in a container, over-estimated -/
def SrcFile.cost (s : SrcFile) : Nat := s.data.length + 4 * s.name.length + 800

theorem build_ok (fm : Fmt) (wf : fm.WF) (hh : fm.blockHeader ≤ 60) (deflate : Bytes → Bytes) (files : List SrcFile)
    (hne : files ≠ []) (ht : ∀ s ∈ files, s.ctime < 2^64 ∧ s.mtime < 2^64) (N : Nat)
    (hN : fm.headerSize + 3 * (fm.indexBlock + fm.blockHeader) + (files.map SrcFile.cost).sum ≤ N)
    (hN2 : N ≤ fm.idxLimit) (hN3 : (files.length : Nat) < 2 ^ 31) :
    ∃ w, buildContainer fm deflate ⟨[], 0⟩ (files.map SrcFile.entry) true 0 = .ok w ∧ w.bytes.length ≤ N := by
  have hperm : ((files.map SrcFile.entry).mergeSort entryLe).Perm (files.map SrcFile.entry) := List.mergeSort_perm _ _
  have hpl : ∀ e ∈ (files.map SrcFile.entry).mergeSort entryLe, e.Plain := by
    intro e he
    obtain ⟨s, hs, rfl⟩ := List.mem_map.mp (hperm.subset he)
    exact ht s hs
  have hsum : (docsOf fm ((files.map SrcFile.entry).mergeSort entryLe)).length + 50 * files.length ≤ (files.map SrcFile.cost).sum := by
    have h1 := docsOf_length fm _ hpl
    have h2 : (((files.map SrcFile.entry).mergeSort entryLe).map fun e : Entry => 2 * fm.blockHeader + 24 + 4 * e.name.length + 512 + e.content.length).sum
        = ((files.map SrcFile.entry).map fun e : Entry => 2 * fm.blockHeader + 24 + 4 * e.name.length + 512 + e.content.length).sum :=
      (hperm.map _).sum_nat
    have h3 : ((files.map SrcFile.entry).map fun e : Entry => 2 * fm.blockHeader + 24 + 4 * e.name.length + 512 + e.content.length).sum
        + 50 * files.length ≤ (files.map SrcFile.cost).sum := by
      clear h1 h2 hpl hperm hN hN3 ht hne
      induction files with
      | nil => simp
      | cons s fs ih =>
        simp only [List.map_cons, List.sum_cons, List.length_cons] at *
        have : s.entry.content = s.data := rfl
        have : s.entry.name = s.name := rfl
        simp only [SrcFile.cost, *] at *
        omega
    omega
  have hcount : ((files.map SrcFile.entry).mergeSort entryLe).length = files.length := by simp
  have hne2 : (files.map SrcFile.entry).mergeSort entryLe ≠ [] := by
    intro hc; rw [hc] at hcount; simp at hcount; exact hne (List.eq_nil_of_length_eq_zero hcount.symm)
  unfold buildContainer
  simp only [Bool.not_true]
  generalize hes : (files.map SrcFile.entry).mergeSort entryLe = es at *
  have hwh : writeHeader fm ⟨[], 0⟩ 0 es.length = .ok ⟨headerBytes fm es.length ++ List.replicate (fm.indexBlock + fm.blockHeader) 0,
      (headerBytes fm es.length ++ List.replicate (fm.indexBlock + fm.blockHeader) 0).length⟩ := by
    have : ∃ w, writeHeader fm ⟨[], 0⟩ 0 es.length = .ok w := by
      unfold writeHeader; rw [if_pos (by rw [hcount]; exact hN3)]; exact ⟨_, rfl⟩
    obtain ⟨w, hw⟩ := this
    rw [hw, writeHeader_fresh fm _ w hw]
  rw [hwh]
  simp only
  obtain ⟨⟨w2, toc⟩, ha⟩ := addAll_plain fm deflate es ⟨headerBytes fm es.length ++ List.replicate (fm.indexBlock + fm.blockHeader) 0,
      (headerBytes fm es.length ++ List.replicate (fm.indexBlock + fm.blockHeader) 0).length⟩ [] rfl hpl
  obtain ⟨_, h2, h3⟩ := addAll_ok fm deflate _ _ w2 [] toc rfl ha
  rw [ha]
  simp only
  simp only [List.length_append, headerBytes_length, List.length_replicate, List.nil_append] at h3
  have hw2 : w2.bytes.length = fm.headerSize + (fm.indexBlock + fm.blockHeader) + (docsOf fm es).length := by
    rw [h2]; simp only [List.length_append, headerBytes_length, List.length_replicate]
  rw [h3]
  have hbh : fm.blockHeader ≥ 7 := by simp [Fmt.blockHeader]
  obtain ⟨w', hw', hl⟩ := writeToc_ok fm wf w2 (tocOf fm (fm.headerSize + (fm.indexBlock + fm.blockHeader)) es)
    (by
      intro hc
      have := tocOf_length fm (fm.headerSize + (fm.indexBlock + fm.blockHeader)) es
      rw [hc] at this
      exact hne2 (List.eq_nil_of_length_eq_zero this.symm))
    (by
      intro p hp
      have := mem_tocOf_lt fm _ es p hp
      omega) (by omega)
  refine ⟨w', hw', ?_⟩
  rw [tocBytes_length, tocOf_length, hcount] at hl
  have := wf.idxSmall
  have : 3 * fm.idxW * files.length ≤ 24 * files.length := Nat.mul_le_mul_right _ (by omega)
  omega

/-- **C01 (the build succeeds).**  The premises of `C01_build_extract` are met by every non-empty folder of plain
files whose total size leaves the container under 2 GiB. -/
theorem C01_build_succeeds (deflate : Bytes → Bytes) (files : List SrcFile) (hne : files ≠ [])
    (ht : ∀ s ∈ files, s.ctime < 2^64 ∧ s.mtime < 2^64)
    (hsz : (files.map SrcFile.cost).sum + 2000 < 2 ^ 31) :
    ∃ f, buildFile deflate [files.map SrcFile.entry] true = .ok f ∧ f.length < 2 ^ 31 := by
  have hlen : files.length ≤ (files.map SrcFile.cost).sum := by
    clear hne ht hsz
    induction files with
    | nil => simp
    | cons s fs ih => simp only [List.map_cons, List.sum_cons, List.length_cons, SrcFile.cost] at *; omega
  obtain ⟨w, hw, hl⟩ := build_ok fmt32 fmt32_wf (by decide) deflate files hne ht ((files.map SrcFile.cost).sum + 2000)
    (by have : fmt32.headerSize + 3 * (fmt32.indexBlock + fmt32.blockHeader) ≤ 2000 := by decide
        omega)
    (by have : fmt32.idxLimit = 2^31 := rfl
        omega) (by omega)
  refine ⟨w.bytes, ?_, by omega⟩
  simp [buildFile, hw]

/-- non-vacuity: two files, one with a non-BMP name, satisfy every hypothesis of C01 -/
example : ∃ f, buildFile id [[⟨"b".toList, 5, 6, [1, 2, 3]⟩, ⟨"a😀".toList, 7, 8, []⟩].map SrcFile.entry] true = .ok f ∧
    f.length < 2 ^ 31 ∧ GoodName "a😀".toList := by
  obtain ⟨f, h1, h2⟩ := C01_build_succeeds id [⟨"b".toList, 5, 6, [1, 2, 3]⟩, ⟨"a😀".toList, 7, 8, []⟩] (by decide)
    (by decide) (by decide)
  exact ⟨f, h1, h2, by unfold GoodName; decide⟩


example : ∃ w, buildContainer fmt64 id ⟨[], 0⟩ ([⟨"b".toList, 5, 6, [1, 2, 3]⟩, ⟨"a".toList, 7, 8, []⟩].map SrcFile.entry) true 0 = .ok w ∧
    w.bytes.length < 2 ^ 63 := by
  obtain ⟨w, h1, h2⟩ := build_ok fmt64 fmt64_wf (by decide) id [⟨"b".toList, 5, 6, [1, 2, 3]⟩, ⟨"a".toList, 7, 8, []⟩]
    (by decide) (by decide) (2^20) (by decide) (by decide) (by decide)
  exact ⟨w, h1, Nat.lt_of_le_of_lt h2 (by decide)⟩

/-- a name beginning with a byte order mark does not survive (why `GoodName` is needed) -/
theorem C01_bom_name_lost :
    parseAttr (attrRaw 0 0 [Char.ofNat 0xFEFF, 'a']).length (attrRaw 0 0 [Char.ofNat 0xFEFF, 'a']) =
      .ok (0, 0, ['a']) := by decide

/-! ### C01 beyond the size limit -/

theorem toHex_long (n : Nat) (h1 : 16 ^ 8 ≤ n) (h2 : n < 16 ^ 9) :
    packS 8 (fmt32.int2hex n) = packS 8 (fmt32.int2hex (n / 16)) := by
  have hq : n / 16 < 16 ^ 8 := by omega
  have hq2 : 16 ^ 7 ≤ n / 16 := by omega
  have len8 : ∀ k m, 16 ^ k ≤ m → k + 1 ≤ (toHex m).length := by
    intro k
    induction k with
    | zero => intro m _; exact toHex_length_pos m
    | succ k ih =>
      intro m hm
      rw [Nat.pow_succ] at hm
      have hp : 0 < 16 ^ k := Nat.pow_pos (by decide)
      rw [toHex, if_neg (by omega)]
      have := ih (m / 16) (by rw [Nat.le_div_iff_mul_le (by decide)]; exact hm)
      simp; omega
  have hl : (toHex (n / 16)).length = 8 := by
    have := toHex_length_le 8 (n / 16) (by decide) hq
    have := len8 7 (n / 16) hq2
    omega
  have e : toHex n = toHex (n / 16) ++ [hexDigit (n % 16)] := by
    rw [toHex, if_neg (by omega)]
  have i1 : fmt32.int2hex n = toHex n := by
    simp [Fmt.int2hex, fmt32, rjust, e, hl]
  have i2 : fmt32.int2hex (n / 16) = toHex (n / 16) := by
    simp [Fmt.int2hex, fmt32, rjust, hl]
  rw [i1, i2, e]
  simp only [packS, List.length_append, hl]
  rw [List.take_append_of_le_length (by omega)]
  simp

/-- **C01 negative part.**  A single file of 4 GiB or more (below 64 GiB) is accepted by the builder, but the sizes in
its block header are cut to eight digits, so that what is read back is only the first sixteenth of the file:
the claim "the build fails instead of producing a file that reads back differently" is false. -/
theorem C01_oversized_truncated (deflate : Bytes → Bytes) (s : SrcFile) (hg : GoodName s.name)
    (ht : s.ctime < 2^64 ∧ s.mtime < 2^64) (hname : s.name.length < 2 ^ 20)
    (h1 : 2 ^ 32 ≤ s.data.length) (h2 : s.data.length < 2 ^ 36) (fuel : Nat) (hfuel : 12 ≤ fuel) :
    ∃ f r, buildFile deflate [[s.entry]] true = .ok f ∧ readContainer fmt32 fuel f 0 = .ok r ∧
      r.files = [⟨s.name, s.data.length / 16, parseDatetime s.ctime, parseDatetime s.mtime,
        s.data.take (s.data.length / 16)⟩] := by
  have hms : [s.entry].mergeSort entryLe = [s.entry] := by simp
  have hal := attr_length_le s.entry
  have hename : s.entry.name = s.name := rfl
  rw [hename] at hal
  have hplain : s.entry.Plain := ht
  have hlA : (attrBlock fmt32 s.entry).length = fmt32.blockHeader + max 0 s.entry.attr.length := blockBytes_length _ _ _ _ _
  have hbh : fmt32.blockHeader = 31 := rfl
  have hoff : ∀ p ∈ tocOf fmt32 (fmt32.headerSize + (fmt32.indexBlock + fmt32.blockHeader)) [s.entry],
      p.1 < 2 ^ (8 * fmt32.idxW - 1) - 1 ∧ p.2 < 2 ^ (8 * fmt32.idxW - 1) - 1 := by
    intro p hp
    simp only [tocOf, List.mem_singleton] at hp
    subst hp
    have e1 : fmt32.headerSize = 16 := rfl
    have e2 : fmt32.indexBlock = 512 := rfl
    have e3 : 2 ^ (8 * fmt32.idxW - 1) - 1 = 2147483647 := by decide
    rw [e1, e2, e3]
    simp only
    omega
  obtain ⟨w, hw⟩ := build_ok_of_offsets fmt32 fmt32_wf deflate [s.entry] (by simp) (by simpa using hplain) (by simp)
    (by
      rw [hms]
      intro p hp
      have h3 := hoff p hp
      have h4 : fmt32.idxLimit = 2 ^ 31 := rfl
      have h5 : 2 ^ (8 * fmt32.idxW - 1) - 1 < 2 ^ 31 := by decide
      omega)
  obtain ⟨_, _, T, X, hb, hT, _, htoc⟩ := build_shape fmt32 fmt32_wf deflate _ w hw
  rw [hms] at hb htoc
  have htl : (tocBytes fmt32 (tocOf fmt32 (fmt32.headerSize + (fmt32.indexBlock + fmt32.blockHeader)) [s.entry])).length = 12 := by
    rw [tocBytes_length, tocOf_length]; rfl
  obtain ⟨full, hd, _⟩ := htoc (.inr (by rw [htl]; decide)) fuel (by rw [htl]; exact hfuel)
  have hhdr : StoredAt w.bytes 0 (headerBytes fmt32 1) := ⟨[], T ++ docsOf fmt32 [s.entry] ++ X, by rw [hb]; simp, rfl⟩
  have hdocs : StoredAt w.bytes (fmt32.headerSize + (fmt32.indexBlock + fmt32.blockHeader)) (docsOf fmt32 [s.entry]) :=
    ⟨headerBytes fmt32 1 ++ T, X, hb, by simp [headerBytes_length, hT]⟩
  rw [docsOf_cons] at hdocs
  have hsa := hdocs.left
  have hsd := hdocs.right.left
  have hrc := readContainer_entries fmt32 fmt32_wf _ _ fuel full _ hhdr hd hoff
  simp only [tocOf, List.map_cons, List.map_nil, readEntries] at hrc
  have r1 := readDoc_single fmt32 fmt32_wf w.bytes (fmt32.headerSize + (fmt32.indexBlock + fmt32.blockHeader)) s.entry.attr 0 0
    ((fmt32.headerSize + (fmt32.indexBlock + fmt32.blockHeader) : Nat) : Int) (by omega) hsa
    (by have : fmt32.hexW = 8 := rfl
        rw [this]; omega) fuel
  have hpay : (s.data.take (s.data.length / 16)).length = s.data.length / 16 := by simp; omega
  have hsd' : StoredAt w.bytes (fmt32.headerSize + (fmt32.indexBlock + fmt32.blockHeader) + (attrBlock fmt32 s.entry).length)
      (fmt32.blockHdr (s.data.length / 16) (s.data.take (s.data.length / 16)).length fmt32.marker ++ s.data.take (s.data.length / 16)) := by
    have hmax : max defaultBlock s.data.length = s.data.length := by simp only [defaultBlock]; omega
    have : dataBlock fmt32 s.entry = (fmt32.blockHdr (s.data.length / 16) (s.data.take (s.data.length / 16)).length fmt32.marker
        ++ s.data.take (s.data.length / 16)) ++ s.data.drop (s.data.length / 16) := by
      have hc : s.entry.content = s.data := rfl
      unfold dataBlock blockBytes
      rw [hc, hmax, hpay, List.append_assoc, List.take_append_drop]
      have hh : fmt32.hexW = 8 := rfl
      simp only [Fmt.blockHdr, hh, toHex_long s.data.length (by omega) (by omega), Nat.sub_self, List.replicate_zero,
        List.append_nil]
    rw [this] at hsd
    exact hsd.left
  have hh8 : fmt32.hexW = 8 := rfl
  have r2 := readDoc_chain fmt32 fmt32_wf.hex w.bytes 0
    ((fmt32.headerSize + (fmt32.indexBlock + fmt32.blockHeader) + (attrBlock fmt32 s.entry).length : Nat) : Int)
    (fmt32.headerSize + (fmt32.indexBlock + fmt32.blockHeader) + (attrBlock fmt32 s.entry).length)
    (s.data.length / 16) fmt32.marker _ [] (by omega) hsd' (by rw [hh8]; omega) (by rw [hpay, hh8]; omega)
    (by decide) .nil fuel (by simp) 512 (s.data.length / 16 + 31)
    (by
      unfold fullSize
      rw [hpay]
      simp only
      rw [if_neg (by omega), hbh]
      congr 1
      omega)
  rw [show ((0:Nat):Int) = 0 from rfl] at r1
  rw [r1] at hrc
  simp only at hrc
  have hattr : s.entry.attr = attrRaw s.ctime s.mtime s.name := rfl
  rw [hattr, parseAttr_attrRaw _ _ _ ht.1 ht.2 hg] at hrc
  simp only at hrc
  rw [r2] at hrc
  simp only at hrc
  refine ⟨w.bytes, _, by simp [buildFile, hw], hrc, ?_⟩
  simp [putFile, List.take_take]

/-! ## C03 -/

theorem writeHeader_end (fm : Fmt) (b : Bytes) (p count : Nat) (w : WFile) (h : writeHeader fm ⟨b, p⟩ b.length count = .ok w) :
    w = ⟨b ++ (headerBytes fm count ++ List.replicate (fm.indexBlock + fm.blockHeader) 0),
      (b ++ (headerBytes fm count ++ List.replicate (fm.indexBlock + fm.blockHeader) 0)).length⟩ := by
  unfold writeHeader at h
  split at h
  · injection h with h
    rw [← h]
    simp only [WFile.seek]
    rw [write_write _ _ _ (by simp)]
    simp only [WFile.write, writeAt_end]
    simp [headerBytes]
  · cases h

theorem writeToc_prefix (fm : Fmt) (w w' : WFile) (toc : List TocEntry) (hl : fm.headerSize ≤ w.bytes.length)
    (h : writeToc fm w toc = .ok w') :
    ∃ rest, w'.bytes = w.bytes.take fm.headerSize ++ ([13, 10] ++ rest) ∧ 3 * fm.hexW ≤ rest.length := by
  have key : ∀ blk : Bytes, (∃ r, blk = [13, 10] ++ r ∧ 3 * fm.hexW ≤ r.length) →
      ∃ rest, ((w.seek fm.headerSize).write blk).bytes = w.bytes.take fm.headerSize ++ ([13, 10] ++ rest) ∧
        3 * fm.hexW ≤ rest.length := by
    rintro blk ⟨r, rfl, hr⟩
    refine ⟨r ++ w.bytes.drop (fm.headerSize + ([13, 10] ++ r).length), ?_, by simp; omega⟩
    simp only [WFile.write, WFile.seek]
    rw [writeAt_inside _ _ _ hl]
    simp
  have hblk : ∀ data d m n, ∃ r, blockBytes fm data d m n = [13, 10] ++ r ∧ 3 * fm.hexW ≤ r.length := by
    intro data d m n
    refine ⟨_, by unfold blockBytes Fmt.blockHdr; simp only [List.append_assoc]; rfl, ?_⟩
    simp [packS_length]; omega
  unfold writeToc at h
  split at h
  · cases h
  · cases hp : packToc fm toc with
    | error e => rw [hp] at h; cases h
    | ok t =>
      rw [hp] at h
      simp only at h
      split at h
      · injection h with h
        rw [writeBlock_some _ _ _ _ _ _ _ hl] at h
        subst h
        exact key _ (hblk _ _ _ _)
      · injection h with h
        rw [writeBlock_some _ _ _ _ _ _ _ hl] at h
        obtain ⟨rest, hr, hrl⟩ := key _ (hblk (t.take fm.indexBlock) t.length fm.indexBlock (nextOf fm (some w.bytes.length)))
        have := tocTail_eq fm (ceilDiv t.length fm.indexBlock - 1) (((w.seek fm.headerSize).write
          (blockBytes fm (t.take fm.indexBlock) t.length fm.indexBlock (nextOf fm (some w.bytes.length)))).seek
            ((w.seek fm.headerSize).write
          (blockBytes fm (t.take fm.indexBlock) t.length fm.indexBlock (nextOf fm (some w.bytes.length)))).bytes.length)
          w.bytes.length (t.drop fm.indexBlock) rfl
        simp only at this h
        rw [← h, this]
        have e : ∀ (x : WFile) n, (x.seek n).bytes = x.bytes := fun _ _ => rfl
        rw [e, hr]
        exact ⟨rest ++ _, by rw [List.append_assoc, List.append_assoc], by simp only [List.length_append]; omega⟩

/-- **C03 is false of the code.**  Whatever the two folders contain, if `build` produces a file from two container
folders, `extract` fails on it: the table of contents of the second container is written over the one of the first
(container.py:241,246 seek to `header_size` without `self.offset`). -/
theorem C03_two_containers_unreadable (deflate : Bytes → Bytes) (d0 d1 : List Entry) (f : Bytes)
    (hb : buildFile deflate [d0, d1] true = .ok f) (fuel steps : Nat) :
    extractLoop f fuel (steps + 1) 0 = .error .value := by
  simp only [buildFile] at hb
  cases hw : buildContainer fmt32 deflate ⟨[], 0⟩ d0 true 0 with
  | error e => rw [hw] at hb; cases hb
  | ok w =>
    rw [hw] at hb
    simp only [WFile.seek] at hb
    obtain ⟨_, hne, T, X, hbytes, hT, _⟩ := build_shape fmt32 fmt32_wf deflate d0 w hw
    cases hw2 : buildContainer fmt64 deflate ⟨w.bytes, w.bytes.length⟩ d1 true w.bytes.length with
    | error e => rw [hw2] at hb; cases hb
    | ok w2 =>
      rw [hw2] at hb
      injection hb with hb
      subst hb
      unfold buildContainer at hw2
      simp only at hw2
      cases h3 : writeHeader fmt64 ⟨w.bytes, w.bytes.length⟩ w.bytes.length (d1.mergeSort entryLe).length with
      | error e => rw [h3] at hw2; cases hw2
      | ok w3 =>
        rw [h3] at hw2
        have e3 := writeHeader_end _ _ _ _ _ h3
        simp only [Bool.not_true] at hw2
        cases h4 : addAll fmt64 deflate false (d1.mergeSort entryLe) (w3, []) with
        | error e => rw [h4] at hw2; cases hw2
        | ok r =>
          obtain ⟨w4, toc⟩ := r
          rw [h4] at hw2
          simp only at hw2
          obtain ⟨_, e4, _⟩ := addAll_ok fmt64 deflate _ w3 w4 [] toc (by rw [e3]) h4
          have hh64 : fmt64.headerSize = 20 := rfl
          have hh32 : fmt32.headerSize = 16 := rfl
          have hwl : 20 ≤ w.bytes.length := by
            rw [hbytes]; simp only [List.length_append, headerBytes_length, hT, hh32, fmt32, Fmt.blockHeader]; omega
          have hw4 : w4.bytes.take 20 = w.bytes.take 20 := by
            rw [e4, e3]
            simp only [List.append_assoc]
            rw [List.take_append_of_le_length hwl]
          obtain ⟨rest, hr, hrl⟩ := writeToc_prefix fmt64 w4 w2 toc (by
            rw [hh64, e4, e3]; simp only [List.length_append]; omega) hw2
          rw [hh64, hw4] at hr
          have hpre : ∃ x1 x2 x3 x4, w.bytes.take 20 = headerBytes fmt32 (d0.mergeSort entryLe).length ++ [x1, x2, x3, x4] := by
            rw [hbytes]
            simp only [List.append_assoc]
            rw [List.take_append, headerBytes_length, hh32, List.take_of_length_le (by rw [headerBytes_length, hh32]; omega)]
            match T, hT with
            | x1 :: x2 :: x3 :: x4 :: T', _ => exact ⟨x1, x2, x3, x4, by simp⟩
          obtain ⟨x1, x2, x3, x4, hpre⟩ := hpre
          rw [hpre] at hr
          have hr' : w2.bytes = headerBytes fmt32 (d0.mergeSort entryLe).length ++ (x1 :: x2 :: x3 :: x4 :: 13 :: 10 :: rest) := by
            rw [hr]; simp
          rw [hr']
          generalize (d0.mergeSort entryLe).length = n
          have hhl := headerBytes_length fmt32 n
          rw [hh32] at hhl
          have hrl : 48 ≤ rest.length := hrl
          rw [extractLoop]
          have hdet : detectFormat (headerBytes fmt32 n ++ (x1 :: x2 :: x3 :: x4 :: 13 :: 10 :: rest)) 0 = .ok (some fmt32) := by
            unfold detectFormat
            rw [if_neg (by omega)]
            have : (readAt (headerBytes fmt32 n ++ (x1 :: x2 :: x3 :: x4 :: 13 :: 10 :: rest)) (Int.toNat 0) 8).take 4 = [0xFF, 0xFF, 0xFF, 0x7F] := by
              unfold readAt
              simp only [Int.toNat_zero, List.drop_zero, List.take_take]
              rw [List.take_append_of_le_length (by omega)]
              unfold headerBytes
              simp only [List.append_assoc]
              rw [List.take_append_of_le_length (by decide)]
              decide
            rw [if_pos this]
          rw [hdet]
          simp only
          have hrd : readContainer fmt32 fuel (headerBytes fmt32 n ++ (x1 :: x2 :: x3 :: x4 :: 13 :: 10 :: rest)) 0 = .error .value := by
            unfold readContainer
            rw [if_neg (by omega)]
            have hbuff : readAt (headerBytes fmt32 n ++ (x1 :: x2 :: x3 :: x4 :: 13 :: 10 :: rest)) (Int.toNat 0) fmt32.headerSize
                = headerBytes fmt32 n := by
              unfold readAt
              simp only [Int.toNat_zero, List.drop_zero, hh32]
              rw [List.take_append_of_le_length (by omega), List.take_of_length_le (by omega)]
            simp only [hbuff]
            rw [if_neg (by rw [hhl, hh32]; simp)]
            have hdf : leInt32 (((headerBytes fmt32 n).drop fmt32.idxW).take 4) = 512 := by
              have : (headerBytes fmt32 n).drop fmt32.idxW = leBytes 4 defaultBlock ++ (leBytes 4 n ++ leBytes 4 0) := by
                unfold headerBytes
                rw [List.append_assoc, List.append_assoc, List.drop_append, List.drop_eq_nil_of_le (by simp)]
                simp
              rw [this, List.take_append_of_le_length (by simp), List.take_of_length_le (by simp)]
              decide
            rw [hdf, if_neg (by decide)]
            have hblk : readBlock fmt32 (headerBytes fmt32 n ++ (x1 :: x2 :: x3 :: x4 :: 13 :: 10 :: rest)) 0 fmt32.headerSize none
                = .error .value := by
              unfold readBlock
              simp only
              rw [if_neg (by omega)]
              have hb31 : fmt32.blockHeader = 31 := rfl
              have hrb : readAt (headerBytes fmt32 n ++ (x1 :: x2 :: x3 :: x4 :: 13 :: 10 :: rest))
                  ((fmt32.headerSize : Int) + 0).toNat fmt32.blockHeader =
                  x1 :: x2 :: x3 :: x4 :: 13 :: 10 :: rest.take 25 := by
                have : ((fmt32.headerSize : Int) + 0).toNat = (headerBytes fmt32 n).length := by
                  rw [hhl, hh32]; rfl
                rw [this, readAt_append_exact, hb31]
                simp
              rw [hrb]
              rw [if_neg (by simp), if_neg (by simp [hb31]; omega)]
              have hbad : parseHex (readAt (x1 :: x2 :: x3 :: x4 :: 13 :: 10 :: rest.take 25) 2 fmt32.hexW) = none := by
                have h8 : fmt32.hexW = 8 := rfl
                rw [h8]
                simp only [readAt, List.drop_succ_cons, List.drop_zero, List.take_succ_cons]
                unfold parseHex
                rw [if_neg (by simp)]
                have h13 : hexVal 13 = none := by decide
                simp only [parseHexAux, h13]
                cases hexVal x3 <;> simp <;> cases hexVal x4 <;> simp
              rw [hbad]
            unfold readDoc
            rw [hblk]
          rw [hrd]

theorem buildFile_two (deflate : Bytes → Bytes) (d0 d1 : List Entry) (n : Bool) (w w2 : WFile)
    (h1 : buildContainer fmt32 deflate ⟨[], 0⟩ d0 n 0 = .ok w)
    (h2 : buildContainer fmt64 deflate ⟨w.bytes, w.bytes.length⟩ d1 n w.bytes.length = .ok w2) :
    buildFile deflate [d0, d1] n = .ok w2.bytes := by
  simp only [buildFile, h1, WFile.seek, h2]

/-- two-container builds do succeed, so the theorem above is not vacuous -/
example : ∃ f, buildFile id [[(⟨"a".toList, 1, 2, [3]⟩ : SrcFile).entry], [(⟨"b".toList, 1, 2, [4]⟩ : SrcFile).entry]] true = .ok f := by
  obtain ⟨w, hw, hl⟩ := build_ok fmt32 fmt32_wf (by decide) id [⟨"a".toList, 1, 2, [3]⟩] (by decide) (by decide) (2^20)
    (by decide) (by decide) (by decide)
  have hw' : buildContainer fmt32 id ⟨[], 0⟩ [(⟨"a".toList, 1, 2, [3]⟩ : SrcFile).entry] true 0 = .ok w := hw
  suffices ∃ w2, buildContainer fmt64 id ⟨w.bytes, w.bytes.length⟩ [(⟨"b".toList, 1, 2, [4]⟩ : SrcFile).entry] true w.bytes.length = .ok w2 by
    obtain ⟨w2, h2⟩ := this
    exact ⟨w2.bytes, buildFile_two _ _ _ _ _ _ hw' h2⟩
  unfold buildContainer
  rw [List.mergeSort_singleton]
  simp only [List.length_singleton, Bool.not_true]
  have : ∃ w3, writeHeader fmt64 ⟨w.bytes, w.bytes.length⟩ w.bytes.length 1 = .ok w3 := by
    unfold writeHeader; rw [if_pos (by decide)]; exact ⟨_, rfl⟩
  obtain ⟨w3, h3⟩ := this
  have e3 := writeHeader_end _ _ _ _ _ h3
  rw [h3]
  simp only
  obtain ⟨⟨w4, toc⟩, h4⟩ := addAll_plain fmt64 id [(⟨"b".toList, 1, 2, [4]⟩ : SrcFile).entry] w3 [] (by rw [e3])
    (by simp [SrcFile.entry, Entry.Plain])
  rw [h4]
  simp only
  obtain ⟨_, e4, et⟩ := addAll_ok fmt64 id _ w3 w4 [] toc (by rw [e3]) h4
  rw [et, List.nil_append]
  have hw3 : w3.bytes.length = w.bytes.length + (20 + (65536 + 55)) := by
    rw [e3]
    simp only [List.length_append, headerBytes_length, List.length_replicate]
    have e1 : fmt64.headerSize = 20 := by decide
    have e2 : fmt64.indexBlock = 65536 := by decide
    have e3 : fmt64.blockHeader = 55 := by decide
    rw [e1, e2, e3]
  obtain ⟨w5, h5, _⟩ := writeToc_ok fmt64 fmt64_wf w4 (tocOf fmt64 w3.bytes.length [(⟨"b".toList, 1, 2, [4]⟩ : SrcFile).entry])
    (by simp [tocOf])
    (by
      intro p hp
      simp only [tocOf, List.mem_singleton] at hp
      have hlA : (attrBlock fmt64 (⟨"b".toList, 1, 2, [4]⟩ : SrcFile).entry).length ≤ 55 + (24 + 4) := by
        have h1 : (attrBlock fmt64 (⟨"b".toList, 1, 2, [4]⟩ : SrcFile).entry).length =
          fmt64.blockHeader + max 0 (Entry.attr (⟨"b".toList, 1, 2, [4]⟩ : SrcFile).entry).length := blockBytes_length _ _ _ _ _
        have h2 := attr_length_le (⟨"b".toList, 1, 2, [4]⟩ : SrcFile).entry
        have h3 : ((⟨"b".toList, 1, 2, [4]⟩ : SrcFile).entry).name.length = 1 := rfl
        have h4 : fmt64.blockHeader = 55 := rfl
        omega
      have : fmt64.idxLimit = 2^64 := rfl
      rw [this]
      subst hp
      simp only
      omega)
    (by
      rw [e4]
      simp only [List.length_append, hw3]
      have : fmt64.headerSize + fmt64.indexBlock + fmt64.blockHeader = 20 + (65536 + 55) := by decide
      omega)
  exact ⟨w5, h5⟩

/-! ### C03, the reading half -/

theorem readBlock_shift (fm : Fmt) (p f : Bytes) (coff off : Int) (mx : Option Nat) (x : Option Block)
    (h : readBlock fm f coff off mx = .ok x) : readBlock fm (p ++ f) (coff + p.length) off mx = .ok x := by
  unfold readBlock at *
  simp only at *
  split at h
  · cases h
  · rename_i hneg
    have e1 : (off + (coff + p.length)).toNat = (off + coff).toNat + p.length := by omega
    rw [if_neg (by omega), e1]
    have e2 : ∀ k n, readAt (p ++ f) (k + p.length) n = readAt f k n := by
      intro k n
      rw [readAt_append_right _ _ _ _ (by omega)]; congr 1; omega
    rw [e2]
    have e3 : (off + coff).toNat + p.length + fm.blockHeader = (off + coff).toNat + fm.blockHeader + p.length := by omega
    rw [e3]
    simp only [e2]
    exact h

theorem readChain_shift (fm : Fmt) (p f : Bytes) (coff : Int) (fuel left next : Nat) (x : Bytes)
    (h : readChain fm f coff fuel left next = .ok x) : readChain fm (p ++ f) (coff + p.length) fuel left next = .ok x := by
  induction fuel generalizing left next x with
  | zero => simpa [readChain] using h
  | succ fuel ih =>
    rw [readChain] at h ⊢
    split at h
    · rename_i hc
      rw [if_pos hc]
      cases hb : readBlock fm f coff next (some left) with
      | error e => rw [hb] at h; cases h
      | ok o =>
        rw [readBlock_shift fm p f coff next (some left) o hb]
        rw [hb] at h
        cases o with
        | none => cases h
        | some b =>
          simp only at h ⊢
          cases hr : readChain fm f coff fuel (left - b.data.length) b.next with
          | error e => rw [hr] at h; cases h
          | ok r => rw [hr] at h; rw [ih _ _ _ hr]; exact h
    · rename_i hc
      rw [if_neg hc]; exact h

theorem readDoc_shift (fm : Fmt) (p f : Bytes) (coff off m : Int) (fuel : Nat) (x : Doc)
    (h : readDoc fm fuel f coff off m = .ok x) : readDoc fm fuel (p ++ f) (coff + p.length) off m = .ok x := by
  unfold readDoc at *
  cases hb : readBlock fm f coff off none with
  | error e => rw [hb] at h; cases h
  | ok o =>
    rw [readBlock_shift fm p f coff off none o hb]
    rw [hb] at h
    cases o with
    | none => cases h
    | some b =>
      simp only at h ⊢
      cases hfs : fullSize fm b.docSize b.blockSize m with
      | error e => rw [hfs] at h; cases h
      | ok full =>
        rw [hfs] at h
        simp only at h ⊢
        cases hr : readChain fm f coff fuel (b.docSize - b.data.length) b.next with
        | error e => rw [hr] at h; cases h
        | ok r => rw [hr] at h; rw [readChain_shift _ _ _ _ _ _ _ _ hr]; exact h

theorem readEntries_shift (fm : Fmt) (p f : Bytes) (coff dflt : Int) (fuel : Nat) (l : List (Int × Int))
    (acc x : Int × List File)
    (h : readEntries fm fuel f coff dflt l acc = .ok x) :
    readEntries fm fuel (p ++ f) (coff + p.length) dflt l acc = .ok x := by
  induction l generalizing acc with
  | nil => simpa [readEntries] using h
  | cons q l ih =>
    obtain ⟨ao, dof⟩ := q
    obtain ⟨size, files⟩ := acc
    rw [readEntries] at h ⊢
    cases h1 : readDoc fm fuel f coff ao 0 with
    | error e => rw [h1] at h; cases h
    | ok ad =>
      rw [h1] at h
      rw [readDoc_shift _ _ _ _ _ _ _ _ h1]
      simp only at h ⊢
      cases h2 : parseAttr ad.dataSize ad.data with
      | error e => rw [h2] at h; cases h
      | ok r =>
        obtain ⟨ct, mt, name⟩ := r
        rw [h2] at h
        simp only at h ⊢
        cases h3 : readDoc fm fuel f coff dof dflt with
        | error e => rw [h3] at h; cases h
        | ok dd =>
          rw [h3] at h
          rw [readDoc_shift _ _ _ _ _ _ _ _ h3]
          exact ih _ h

theorem readContainer_shift (fm : Fmt) (p f : Bytes) (fuel : Nat) (r : ReadResult)
    (h : readContainer fm fuel f 0 = .ok r) : readContainer fm fuel (p ++ f) p.length = .ok r := by
  unfold readContainer at *
  rw [if_neg (by omega)] at *
  simp only [Int.toNat_zero, Int.toNat_natCast] at *
  have e : readAt (p ++ f) p.length fm.headerSize = readAt f 0 fm.headerSize := by
    rw [readAt_append_exact]; simp [readAt]
  rw [e]
  split at h
  · cases h
  · rename_i h1
    rw [if_neg h1]
    split at h
    · cases h
    · rename_i h2
      rw [if_neg h2]
      cases h3 : readDoc fm fuel f 0 fm.headerSize fm.indexBlock with
      | error e => rw [h3] at h; cases h
      | ok toc =>
        rw [h3] at h
        have := readDoc_shift fm p f _ _ _ _ _ h3
        simp only [Int.zero_add] at this
        rw [this]
        simp only at h ⊢
        cases h4 : mapExcept fm.unpackPair (bsplit (leBytes fm.idxW fm.marker) toc.data).dropLast with
        | error e => rw [h4] at h; cases h
        | ok offs =>
          rw [h4] at h
          simp only at h ⊢
          cases h5 : readEntries fm fuel f 0 (leInt32 (((readAt f 0 fm.headerSize).drop fm.idxW).take 4)) offs
            (fm.headerSize + toc.fullSize, []) with
          | error e => rw [h5] at h; cases h
          | ok q =>
            rw [h5] at h
            have := readEntries_shift fm p f _ _ _ _ _ _ h5
            simp only [Int.zero_add] at this
            rw [this]
            exact h

/-- **C03, partial: the reading half.**  A file that is the concatenation of two containers, where the size computed for
the first is its real length (as in files written by the platform) and the second one is readable on its own,
is extracted as exactly these two containers.  Missing from the full property: such a file is not what `build`
produces for two folders, see `C03_two_containers_unreadable`. -/
theorem C03_extract_two_partial (f1 f2 : Bytes) (fm1 fm2 : Fmt) (r1 r2 : ReadResult) (fuel steps : Nat)
    (hst : 3 ≤ steps)
    (h1 : detectFormat (f1 ++ f2) 0 = .ok (some fm1)) (h2 : detectFormat f2 0 = .ok (some fm2))
    (hr1 : readContainer fm1 fuel (f1 ++ f2) 0 = .ok r1) (hs1 : r1.size = f1.length) (hpos : 0 < f1.length)
    (hr2 : readContainer fm2 fuel f2 0 = .ok r2) (hs2 : (f2.length : Int) ≤ r2.size) :
    extractLoop (f1 ++ f2) fuel steps 0 = .ok [r1.files, r2.files] := by
  obtain ⟨s, rfl⟩ : ∃ s, steps = s + 3 := ⟨steps - 3, by omega⟩
  have h2' : detectFormat (f1 ++ f2) f1.length = .ok (some fm2) := by
    have : readAt (f1 ++ f2) f1.length 8 = readAt f2 0 8 := by rw [readAt_append_exact]; simp [readAt]
    unfold detectFormat at *
    rw [if_neg (by omega)]
    rw [if_neg (by omega)] at h2
    simp only [Int.toNat_natCast, Int.toNat_zero, this] at h2 ⊢
    exact h2
  have hend : detectFormat (f1 ++ f2) (f1.length + r2.size) = .ok none := by
    unfold detectFormat
    rw [if_neg (by omega)]
    have : readAt (f1 ++ f2) ((f1.length : Int) + r2.size).toNat 8 = [] := by
      unfold readAt
      rw [List.drop_eq_nil_of_le (by simp only [List.length_append]; omega)]; rfl
    simp only [this]; rw [if_neg (by decide), if_pos trivial]
  rw [extractLoop, h1]
  simp only [hr1]
  rw [if_neg (by omega), hs1, Int.zero_add, extractLoop, h2']
  simp only
  rw [readContainer_shift fm2 f1 f2 fuel r2 hr2]
  simp only
  rw [if_neg (by omega), extractLoop, hend]

/-- the premises of `C03_extract_two_partial` are met by any readable container in front of which stands a
hand-made container whose table of contents fills its block -/
example : ∃ f1 f2 r1 r2, 0 < f1.length ∧ detectFormat (f1 ++ f2) 0 = .ok (some fmt32) ∧
    readContainer fmt32 100 (f1 ++ f2) 0 = .ok r1 ∧ r1.size = f1.length ∧
    detectFormat f2 0 = .ok (some fmt32) ∧ readContainer fmt32 100 f2 0 = .ok r2 ∧ (f2.length : Int) ≤ r2.size := by
  have hf : ∃ b : Bytes, b = headerBytes fmt32 0 ++ (fmt32.blockHdr 0 512 fmt32.marker ++ List.replicate 512 0) := ⟨_, rfl⟩
  obtain ⟨b, hb⟩ := hf
  have hbl : b.length = 559 := by
    rw [hb]; simp only [List.length_append, headerBytes_length, blockHdr_length, List.length_replicate]; rfl
  have key : ∀ t : Bytes, detectFormat (b ++ t) 0 = .ok (some fmt32) ∧ readContainer fmt32 100 (b ++ t) 0 = .ok ⟨559, []⟩ := by
    intro t
    have hhdr : StoredAt (b ++ t) 0 (headerBytes fmt32 0) := ⟨[], _, by rw [hb]; simp only [List.nil_append, List.append_assoc]; rfl, rfl⟩
    constructor
    · unfold detectFormat
      rw [if_neg (by omega)]
      have h9 : (readAt (b ++ t) (Int.toNat 0) 8).take 4 = [0xFF, 0xFF, 0xFF, 0x7F] := by
        rw [show (Int.toNat 0) = 0 from rfl, hhdr.read_le 8 (by decide)]; decide
      rw [if_pos h9]
    · have hs : StoredAt (b ++ t) 16 (fmt32.blockHdr 0 (List.replicate 512 (0:UInt8)).length fmt32.marker ++ List.replicate 512 0) :=
        ⟨headerBytes fmt32 0, t, by rw [hb]; simp only [List.append_assoc, List.length_replicate], rfl⟩
      have hd := readDoc_chain fmt32 fmt32_wf.hex (b ++ t) 0 fmt32.headerSize 16 0 fmt32.marker _ [] rfl hs (by decide)
        (by rw [List.length_replicate]; decide)
        (by decide) .nil 100 (by decide) fmt32.indexBlock 543 (by rw [List.length_replicate]; decide)
      have := readContainer_entries fmt32 fmt32_wf (b ++ t) 0 100 543 [] hhdr (by
        rw [hd, List.take_zero]; rfl) (by simp)
      rw [this]
      rfl
  refine ⟨b, b, ⟨559, []⟩, ⟨559, []⟩, by omega, (key b).1, (key b).2, by simp [hbl], ?_, ?_, by simp [hbl]⟩
  · have := (key []).1; rwa [List.append_nil] at this
  · have := (key []).2; rwa [List.append_nil] at this

/-! ## C05 -/

/-- **C05.**  A document whose blocks are chained from place to place (`ChainAt`, arbitrary offsets, arbitrary payload
lengths including padding and empty later blocks, arbitrary other bytes around) reads as the concatenation of the
payloads, cut to the declared document size.  The first block must hold at least one byte (or the document be empty
and no minimum block size asked for). -/
theorem C05_chain_reassembled (fm : Fmt) (hfm : fm = fmt32 ∨ fm = fmt64) (f : Bytes) (coff off : Int) (o size next : Nat)
    (payload : Bytes) (ps : List Bytes) (ho : off + coff = o)
    (hs : StoredAt f o (fm.blockHdr size payload.length next ++ payload))
    (hd : size < 16 ^ fm.hexW) (hb : payload.length < 16 ^ fm.hexW) (hn : next < 16 ^ fm.hexW)
    (ht : ChainAt fm f coff next ps) (fuel : Nat) (hf : ps.length ≤ fuel) (m : Int)
    (hne : payload ≠ [] ∨ (size = 0 ∧ m ≤ 0)) :
    ∃ full, readDoc fm fuel f coff off m = .ok ⟨full, size, (payload ++ ps.flatten).take size⟩ := by
  have hw : 2 ≤ fm.hexW := by rcases hfm with rfl | rfl <;> decide
  cases hfs : fullSize fm size payload.length m with
  | ok full => exact ⟨full, readDoc_chain fm hw f coff off o size next payload ps ho hs hd hb hn ht fuel hf m full hfs⟩
  | error e =>
    exfalso
    unfold fullSize at hfs
    simp only at hfs
    split at hfs
    · rename_i hgt
      split at hfs
      · rename_i hz
        have := List.eq_nil_of_length_eq_zero hz
        rcases hne with h | ⟨h1, h2⟩
        · exact h this
        · omega
      · cases hfs
    · cases hfs

/-- **C05, the remaining case**: a document whose first block is empty although it declares content (or a minimum block
size) is reported as an error (division by zero in the size computation), never returned wrongly. -/
theorem C05_empty_first_block_error (fm : Fmt) (hfm : fm = fmt32 ∨ fm = fmt64) (f : Bytes) (coff off : Int) (o size next : Nat)
    (ho : off + coff = o) (hs : StoredAt f o (fm.blockHdr size 0 next))
    (hd : size < 16 ^ fm.hexW) (hn : next < 16 ^ fm.hexW) (fuel : Nat) (m : Int) (hne : 0 < size ∨ 0 < m) :
    readDoc fm fuel f coff off m = .error .zeroDiv := by
  have hw : 2 ≤ fm.hexW := by rcases hfm with rfl | rfl <;> decide
  unfold readDoc
  rw [readBlock_stored fm hw f coff off o ho size 0 next [] (by simpa using hs) hd (by simpa using Nat.pow_pos (by decide)) hn none
    (by simp [effMax])]
  simp only
  unfold fullSize
  simp only
  rw [if_pos (by omega), if_pos trivial]

/-- a two-block document scattered in a file, second block before the first, with padding -/
example : ∃ f, readDoc fmt32 5 f 0 40 0 = .ok ⟨5, 5, [1, 2, 3, 4, 5]⟩ := by
  have h2 : ∃ b2 : Bytes, b2 = fmt32.blockHdr 0 9 fmt32.marker ++ [4, 5, 0, 0, 0, 0, 0, 0, 0] := ⟨_, rfl⟩
  obtain ⟨b2, hb2⟩ := h2
  have hl2 : b2.length = 40 := by rw [hb2]; simp only [List.length_append, blockHdr_length]; rfl
  have hs1 : StoredAt (b2 ++ (fmt32.blockHdr 5 3 0 ++ [1, 2, 3])) 40 (fmt32.blockHdr 5 [1, 2, 3].length 0 ++ [1, 2, 3]) :=
    ⟨b2, [], by simp, hl2⟩
  have hs2 : StoredAt (b2 ++ (fmt32.blockHdr 5 3 0 ++ [1, 2, 3])) 0
      (fmt32.blockHdr 0 [4, 5, 0, 0, 0, 0, 0, 0, 0].length fmt32.marker ++ [4, 5, 0, 0, 0, 0, 0, 0, 0]) :=
    ⟨[], fmt32.blockHdr 5 3 0 ++ [1, 2, 3], by rw [hb2]; rfl, rfl⟩
  have hc : ChainAt fmt32 (b2 ++ (fmt32.blockHdr 5 3 0 ++ [1, 2, 3])) 0 0 [[4, 5, 0, 0, 0, 0, 0, 0, 0]] :=
    .cons 0 0 0 fmt32.marker _ [] (by decide) (by decide) hs2 (by decide) (by decide) (by decide) .nil
  refine ⟨b2 ++ (fmt32.blockHdr 5 3 0 ++ [1, 2, 3]), ?_⟩
  have := readDoc_chain fmt32 fmt32_wf.hex _ 0 40 40 5 0 [1, 2, 3] [[4, 5, 0, 0, 0, 0, 0, 0, 0]] (by decide) hs1 (by decide)
    (by decide) (by decide) hc 5 (by decide) 0 5 (by decide)
  exact this

/-! ## C06 -/

/-- **C06.**  For every history of document writes to a container file: nothing written before is changed (the old file
is a prefix of the new one) and every document of the history reads back, at the offset handed out for it, with
exactly its content. -/
theorem C06_history_preserved (fm : Fmt) (hfm : fm = fmt32 ∨ fm = fmt64) (w : WFile) (hp : w.pos = w.bytes.length)
    (docs : List (Bytes × Nat)) (w' : WFile) (offs : List Nat) (h : writeDocs fm w docs = (w', offs))
    (hlen : w'.bytes.length < 16 ^ fm.hexW) :
    w.bytes <+: w'.bytes ∧ w'.pos = w'.bytes.length ∧ offs.length = docs.length ∧
    ∀ i (hi : i < docs.length) (hj : i < offs.length), ∀ fuel,
      ∃ full, readDoc fm fuel w'.bytes 0 offs[i] docs[i].2 = .ok ⟨full, docs[i].1.length, docs[i].1⟩ := by
  have wf : fm.WF := by exact hfm.elim (fun h => h ▸ fmt32_wf) (fun h => h ▸ fmt64_wf)
  induction docs generalizing w offs with
  | nil =>
    simp only [writeDocs, Prod.mk.injEq] at h
    obtain ⟨rfl, rfl⟩ := h
    exact ⟨List.prefix_refl _, hp, rfl, by intro i hi; simp at hi⟩
  | cons d docs ih =>
    obtain ⟨data, m⟩ := d
    simp only [writeDocs] at h
    unfold writeDoc at h
    rw [writeBlock_none _ _ _ _ _ _ hp] at h
    simp only at h
    cases hr : writeDocs fm ⟨w.bytes ++ blockBytes fm data data.length m (nextOf fm none),
        (w.bytes ++ blockBytes fm data data.length m (nextOf fm none)).length⟩ docs with
    | mk w2 offs2 =>
      rw [hr] at h
      simp only [Prod.mk.injEq] at h
      obtain ⟨rfl, rfl⟩ := h
      obtain ⟨h1, h2, h3, h4⟩ := ih _ rfl offs2 hr
      refine ⟨(List.prefix_append _ _).trans h1, h2, by simp [h3], ?_⟩
      intro i hi hj fuel
      cases i with
      | succ i =>
        simp only [List.getElem_cons_succ]
        exact h4 i (by simpa using hi) (by simpa using hj) fuel
      | zero =>
        simp only [List.getElem_cons_zero]
        obtain ⟨t, ht⟩ := h1
        have hs : StoredAt w2.bytes w.bytes.length (blockBytes fm data data.length m fm.marker) :=
          ⟨w.bytes, t, by rw [← ht]; rfl, rfl⟩
        have hle := hs.le
        rw [blockBytes_length] at hle
        exact ⟨_, readDoc_single fm wf w2.bytes w.bytes.length data m 0 w.bytes.length (by omega) hs (by omega) fuel⟩

example : (writeDocs fmt32 ⟨[], 0⟩ [([1, 2, 3], 0), ([], 5)]).1.bytes.length < 16 ^ fmt32.hexW := by
  simp only [writeDocs, writeDoc]
  rw [writeBlock_none fmt32 ⟨[], 0⟩ [1, 2, 3] _ _ _ rfl]
  simp only
  rw [writeBlock_none _ _ _ _ _ _ rfl]
  simp only [List.length_append, blockBytes_length]
  decide

/-! ## C07 -/

theorem hexVal_lt (b : UInt8) (d : Nat) (h : hexVal b = some d) : d < 16 := by
  unfold hexVal at h
  simp only at h
  split at h
  · injection h; omega
  · split at h
    · injection h; omega
    · split at h
      · injection h; omega
      · cases h

theorem parseHexAux_lt (bs : Bytes) (acc v : Nat) (h : parseHexAux acc bs = some v) : v < (acc + 1) * 16 ^ bs.length := by
  induction bs generalizing acc with
  | nil => simp [parseHexAux] at h; subst h; simp
  | cons b bs ih =>
    rw [parseHexAux] at h
    cases hb : hexVal b with
    | none => rw [hb] at h; cases h
    | some d =>
      rw [hb] at h
      have h1 := ih _ h
      have h2 := hexVal_lt b d hb
      have h3 : (acc * 16 + d + 1) * 16 ^ bs.length ≤ ((acc + 1) * 16) * 16 ^ bs.length := Nat.mul_le_mul_right _ (by omega)
      rw [List.length_cons, Nat.pow_succ, Nat.mul_comm (16 ^ bs.length) 16, ← Nat.mul_assoc]
      omega

/-- **C07 (in range, partial).**  Each field of a block header reads back as written exactly for the values that fit
the field; and the three fields do not interfere.  Missing: a value that does not fit is stored wrongly instead of
being rejected (`C07_overflow_not_rejected`). -/
theorem C07_header_fields_partial (fm : Fmt) (hfm : fm = fmt32 ∨ fm = fmt64) (d b n : Nat) :
    (parseHex (readAt (fm.blockHdr d b n) 2 fm.hexW) = some d ↔ d < 16 ^ fm.hexW) ∧
    (parseHex (readAt (fm.blockHdr d b n) (fm.hexW + 3) fm.hexW) = some b ↔ b < 16 ^ fm.hexW) ∧
    (parseHex (readAt (fm.blockHdr d b n) (2 * fm.hexW + 4) fm.hexW) = some n ↔ n < 16 ^ fm.hexW) := by
  have hw : 2 ≤ fm.hexW := by rcases hfm with rfl | rfl <;> decide
  rw [blockHdr_field1, blockHdr_field2, blockHdr_field3]
  have key : ∀ v, parseHex (packS fm.hexW (fm.int2hex v)) = some v ↔ v < 16 ^ fm.hexW := by
    intro v
    constructor
    · intro h
      unfold parseHex at h
      split at h
      · cases h
      · have := parseHexAux_lt _ _ _ h
        rw [packS_length] at this
        simpa using this
    · exact hexField fm v hw
  exact ⟨key d, key b, key n⟩

/-- **C07 negative part.**  A size of 4 GiB is not rejected: it is stored as a sixteenth of itself. -/
theorem C07_overflow_not_rejected :
    parseHex (packS 8 (fmt32.int2hex (2 ^ 32))) = some (2 ^ 28) := by
  rw [toHex_long (2 ^ 32) (by decide) (by decide)]
  exact hexField fmt32 (2 ^ 32 / 16) (by decide) (by decide)

/-! ## C38 -/

/-- **C38.**  A representable local time is stored and read back as the same instant rounded down to 100 µs; a stored value
that is beyond the calendar reads as the last second of year 9999. -/
theorem C38_times (t s : Nat) :
    (t ≤ maxMicros → parseDatetime (epoch2int t) ≤ t ∧ t < parseDatetime (epoch2int t) + 100 ∧
      parseDatetime (epoch2int t) % 100 = 0) ∧
    (epoch2int t ≤ s → parseDatetime (epoch2int t) ≤ parseDatetime s ∨ maxMicros < s * 100) ∧
    (maxMicros < s * 100 → parseDatetime s = 315537897599 * 1000000) := by
  unfold parseDatetime epoch2int maxMicros
  refine ⟨?_, ?_, ?_⟩
  · intro h; rw [if_pos (by omega)]; omega
  · intro h
    rcases Nat.lt_or_ge 315537897599999999 (s * 100) with h2 | h2
    · exact .inr h2
    · left; rw [if_pos (by omega), if_pos h2]; omega
  · intro h; rw [if_neg (by omega)]

example : (63000000000 * 1000000 + 123456 : Nat) ≤ maxMicros ∧ maxMicros < (2^63) * 100 := by decide

end V8
