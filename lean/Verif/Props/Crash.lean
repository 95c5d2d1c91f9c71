import Verif.CrashOuts
import Verif.Props.Container
/-
Property theorems C71 about builds that are interrupted (Verif/Crash.lean).
-/
namespace V8.Crash

/-- the recorded build is the build of the container model: it succeeds and fails alike, with the same file, and the
record of its `write` calls reproduces that file. -/
theorem C71_record (deflate : Bytes → Bytes) (listing : List Entry) :
    (∀ f, buildFile deflate [listing] true = .ok f ↔
      (buildFileL listing).2 = .ok () ∧ (buildFileL listing).1.w.bytes = f) ∧
    (∀ e, buildFile deflate [listing] true = .error e ↔ (buildFileL listing).2 = .error e) ∧
    replay [] (buildFileL listing).1.log = (buildFileL listing).1.w.bytes := by
  refine ⟨?_, ?_, recorded_build fmt32 listing⟩ <;>
  · unfold buildFile buildFileL buildL buildContainer writeHeaderL writeHeader
    simp only
    by_cases hc : (listing.mergeSort entryLe).length < 2 ^ 31
    · simp only [if_pos hc, filesL, Bool.not_true]
      generalize hl : ((((⟨⟨[], 0⟩, []⟩ : LFile).seek 0).write (leBytes fmt32.idxW fmt32.marker ++ leBytes 4 defaultBlock ++
        leBytes 4 (listing.mergeSort entryLe).length ++ leBytes 4 0)).write
        (List.replicate (fmt32.indexBlock + fmt32.blockHeader) 0)) = l0
      have hw : (((⟨[], 0⟩ : WFile).seek 0).write (leBytes fmt32.idxW fmt32.marker ++ leBytes 4 defaultBlock ++
        leBytes 4 (listing.mergeSort entryLe).length ++ leBytes 4 0)).write
        (List.replicate (fmt32.indexBlock + fmt32.blockHeader) 0) = l0.w := by rw [← hl]; rfl
      rw [hw]
      have hs := addAllL_same fmt32 deflate (listing.mergeSort entryLe) l0 []
      rcases hx : addAllL fmt32 (listing.mergeSort entryLe) (l0, []) with ⟨l1, er | toc⟩
      · rw [hx] at hs
        unfold Same at hs
        cases hm : addAll fmt32 deflate false (listing.mergeSort entryLe) (l0.w, []) with
        | ok r => rw [hm] at hs; exact hs.elim
        | error e =>
          rw [hm] at hs
          simp only at hs
          subst hs
          simp [tableL]
      · rw [hx] at hs
        unfold Same at hs
        cases hm : addAll fmt32 deflate false (listing.mergeSort entryLe) (l0.w, []) with
        | error r => rw [hm] at hs; exact hs.elim
        | ok r =>
          obtain ⟨w, toc'⟩ := r
          rw [hm] at hs
          simp only at hs
          obtain ⟨rfl, rfl⟩ := hs
          simp only [tableL]
          have ht := writeTocL_same fmt32 l1 toc
          cases hwt : writeToc fmt32 l1.w toc with
          | ok w => have := (ht.1 w).mp hwt; simp [this.1, this.2]
          | error e => have := (ht.2 e).mp hwt; simp [this]
    · simp only [if_neg hc, filesL]; simp

/-- **C71 (a build that fails leaves nothing that can be read).**  Whatever folder is built - with subfolders, oversized
files, anything - if the build raises an exception, then in every state in which the file can have been left, `extract`
fails too, unless the file is still empty. -/
theorem C71_failed_build (listing : List Entry) (e : Err) (he : (buildFileL listing).2 = .error e) (g : Bytes)
    (hs : Stopped (buildFileL listing).1.log g) (hne : g ≠ []) (fuel steps : Nat) :
    ∃ e', extractLoop g fuel steps 0 = .error e' := by
  rcases hs with hs | hs
  · exact absurd hs hne
  have hl := buildL_log fmt32 fmt32_wf listing
  simp only at hl
  unfold buildFileL at hs he
  rcases hl with hl | ⟨A, D, hA, hl | ⟨B, C, hok, _⟩⟩
  · obtain ⟨done, p, b, rest, k, h1, _⟩ := hs
    rw [hl] at h1
    cases done <;> cases h1
  · rw [hl] at hs
    obtain ⟨k, h1, h2⟩ := stopped_cont [] 0 A _ g (Nat.le_refl _) hA hs
    rw [writeAt_end [] _ 0 rfl, List.nil_append] at h2
    exact loop_early g D _ k fuel steps h2 hne
  · rw [hok] at he; cases he

/-- **C71 (stopped anywhere).**  A folder of plain files is built and the process is stopped at any byte.  If `extract`
accepts what it left, then either the file is empty and nothing is extracted, or what is extracted first are the source
files themselves - every one that is there with its own name, bytes, size and times.  They are all there, and nothing
else, except that with at most 42 files (a table of one block) files may be missing at the end of the name order; only
one can be missing unless `extract` goes on and takes what follows for a further container. -/
theorem C71_stopped (files : List SrcFile) (hdist : (files.map (·.name)).Nodup) (hgood : ∀ s ∈ files, GoodName s.name)
    (hsz : (buildFileL (files.map SrcFile.entry)).1.w.bytes.length < 2 ^ 31)
    (g : Bytes) (hs : Stopped (buildFileL (files.map SrcFile.entry)).1.log g)
    (fuel steps : Nat) (outs : List (List File)) (hx : extractLoop g fuel steps 0 = .ok outs) :
    (g = [] ∧ outs = []) ∨
    ∃ all, all.Perm (files.map SrcFile.expected) ∧ (all.map (·.name)).Pairwise (· ≤ ·) ∧
      (outs = [all] ∨
       (files.length ≤ 42 ∧ ∃ k rest, k < files.length ∧ outs = all.take k :: rest ∧ (rest = [] → k + 1 = files.length))) := by
  have hst := state_of_stopped _ g hs
  have hperm := List.mergeSort_perm (files.map SrcFile.entry) entryLe
  have hsorted := sorted_entries (files.map SrcFile.entry)
  have hn : ∀ e ∈ (files.map SrcFile.entry).mergeSort entryLe, GoodName e.name := by
    intro e he
    obtain ⟨s, hs', rfl⟩ := List.mem_map.mp (hperm.subset he)
    exact hgood s hs'
  have hnd : (((files.map SrcFile.entry).mergeSort entryLe).map (·.name)).Nodup := by
    rw [(hperm.map _).nodup_iff, List.map_map]; exact hdist
  have hlen : ((files.map SrcFile.entry).mergeSort entryLe).length = files.length := by
    rw [List.length_mergeSort, List.length_map]
  generalize (buildFileL (files.map SrcFile.entry)).1.w.bytes.length = N at *
  clear hs
  generalize hes : (files.map SrcFile.entry).mergeSort entryLe = es at *
  have hall : (es.map Entry.asRead).Perm (files.map SrcFile.expected) := read_spec files es hperm
  have hallS : ((es.map Entry.asRead).map (·.name)).Pairwise (· ≤ ·) := by
    rw [List.map_map]
    have : (fun x : File => x.name) ∘ Entry.asRead = fun e : Entry => e.name := by
      funext e; exact asRead_name e
    rw [this]
    exact hsorted
  have hempty : g = [] → outs = [] := by
    intro h0
    subst h0
    cases steps with
    | zero => cases hx
    | succ steps => rw [loop_empty] at hx; injection hx with hx; exact hx.symm
  have hdl := docsOf_take fmt32
  cases hst with
  | empty h0 => exact .inl ⟨h0, hempty h0⟩
  | early D k hg =>
    by_cases h0 : g = []
    · exact .inl ⟨h0, hempty h0⟩
    · obtain ⟨e, he⟩ := loop_early g D _ k fuel steps hg h0
      rw [he] at hx; cases hx
  | short k t ht h512 hpos hpl hk hN hg =>
    right
    refine ⟨_, hall, hallS, ?_⟩
    have hbl : (blockBytes fmt32 t t.length 0 fmt32.marker).length = 31 + t.length := by
      rw [blockBytes_length]; show 31 + _ = _; omega
    by_cases hge : 28 ≤ k
    · obtain ⟨h1, h2, h3⟩ := outs_short es k fuel t g ht h512 hpos hpl hk (by omega) hn hnd hg hge
      obtain ⟨rest, h4, h5⟩ := loop_read g _ fuel steps _ outs h2 h3 hx
      have htl : t.length = 12 * es.length := by
        rw [ht, tocBytes_length, tocOf_length]; rfl
      generalize hm : (k - 31) / 12 = m at *
      simp only [List.map_take] at h4
      by_cases hfull : es.length ≤ m
      · left
        rw [List.take_of_length_le hfull] at h5
        have : rest = [] := h5.mp (by
          simp only
          rw [h1]
          split <;> omega)
        rw [h4, this, List.take_of_length_le (by rw [List.length_map]; exact hfull)]
      · right
        refine ⟨by omega, m, rest, by omega, h4, ?_⟩
        intro hre
        have h6 := h5.mpr hre
        simp only at h6
        rw [h1] at h6
        have h7 := congrArg List.length (hdl m es)
        rw [List.length_append] at h7
        have h8 := docsOf_length_ge fmt32 (es.drop m)
        rw [List.length_drop] at h8
        rw [h7] at h6
        split at h6 <;> omega
    · obtain ⟨e, he⟩ := loop_bad g es.length fuel steps
        (inplace32 es.length k _ _ (by omega) (by omega) g hg).1
        (table_bad fmt32 fmt32_wf es.length k fuel _ _ (by rw [hbl]; show _ ≤ 543; omega) (by omega)
          (by show k < 28; omega) g hg)
      rw [he] at hx; cases hx
  | first k i t ht h512 hi hi' hk hN hg =>
    have hbl : (blockBytes fmt32 (t.take 512) t.length 512 (559 + (docsOf fmt32 es).length)).length = 31 + 512 := by
      rw [blockBytes_length, List.length_take]; show 31 + _ = _; omega
    have hhdr := (inplace32 es.length k _ _ (by omega) (by omega) g hg).1
    have htN : t.length < 2 ^ 31 := by
      have := toc_fuel fmt32 fmt32_wf 559 es
      rw [← ht] at this
      omega
    have hcap : (2 : Nat) ^ 31 < 16 ^ fmt32.hexW := by decide
    have hd : ∃ e, readDoc fmt32 fuel g 0 fmt32.headerSize fmt32.indexBlock = .error e := by
      by_cases hge : 28 ≤ k
      · exact table_first fmt32 fmt32_wf es.length k fuel (docsOf fmt32 es) t h512 (by show 559 + _ < 2 ^ 31 - 1; omega) (by omega) hk hge g hg
      · exact table_bad fmt32 fmt32_wf es.length k fuel _ _ (by rw [hbl]; decide) (by omega)
          (by show k < 28; omega) g hg
    obtain ⟨e, he⟩ := loop_bad g es.length fuel steps hhdr hd
    rw [he] at hx; cases hx
  | tail k i t ht h512 hi hi' hpl hN hg =>
    right
    refine ⟨_, hall, hallS, .inl ?_⟩
    obtain ⟨h1, ⟨e, h2⟩ | ⟨size, h2, h3⟩⟩ := outs_tail es k i fuel t g ht h512 hi hi' hpl (by omega) hn hnd hg
    · cases steps with
      | zero => cases hx
      | succ steps =>
        rw [extractLoop, detect_header g _ h1] at hx
        simp only [h2] at hx
        cases hx
    · obtain ⟨rest, h4, h5⟩ := loop_read g _ fuel steps _ outs h1 h2 hx
      rw [h4, h5.mp h3]

/-- **C71 (more than 42 files: all or nothing).** -/
theorem C71_all_or_nothing (files : List SrcFile) (hmany : 42 < files.length) (hdist : (files.map (·.name)).Nodup)
    (hgood : ∀ s ∈ files, GoodName s.name)
    (hsz : (buildFileL (files.map SrcFile.entry)).1.w.bytes.length < 2 ^ 31)
    (g : Bytes) (hs : Stopped (buildFileL (files.map SrcFile.entry)).1.log g) (hne : g ≠ [])
    (fuel steps : Nat) (outs : List (List File)) (hx : extractLoop g fuel steps 0 = .ok outs) :
    ∃ all, outs = [all] ∧ all.Perm (files.map SrcFile.expected) ∧ (all.map (·.name)).Pairwise (· ≤ ·) := by
  rcases C71_stopped files hdist hgood hsz g hs fuel steps outs hx with ⟨h, _⟩ | ⟨all, h1, h2, h3 | ⟨h3, _⟩⟩
  · exact absurd h hne
  · exact ⟨all, h3, h1, h2⟩
  · omega

/-- **C71 fails for small products.**  When a product of at most 42 files is built whose last file in name order is short
(at most 512 bytes, its name at most 395 bytes in UTF-16), there is a point at which the process can be stopped such
that `extract` reports success on what it left, with every file except the last one. -/
theorem C71_silent_loss_neg (deflate : Bytes → Bytes) (files : List SrcFile) (f : Bytes) (hfew : files.length ≤ 42)
    (hdist : (files.map (·.name)).Nodup) (hgood : ∀ s ∈ files, GoodName s.name)
    (hb : buildFile deflate [files.map SrcFile.entry] true = .ok f) (hsz : f.length < 2 ^ 31)
    (hlast : ∀ s ∈ files, (∀ s' ∈ files, s'.name ≤ s.name) → s.data.length ≤ 512 ∧ (utf16le s.name).length ≤ 395) :
    ∃ g, Stopped (buildFileL (files.map SrcFile.entry)).1.log g ∧
      ∃ out s, s ∈ files ∧ (∀ s' ∈ files, s'.name ≤ s.name) ∧ (out ++ [s.expected]).Perm (files.map SrcFile.expected) ∧
        ∀ fuel steps, 2 ≤ steps → extractLoop g fuel steps 0 = .ok [out] := by
  obtain ⟨hok, hbytes⟩ := ((C71_record deflate (files.map SrcFile.entry)).1 f).mp hb
  have hrec := (C71_record deflate (files.map SrcFile.entry)).2.2
  obtain ⟨out0, hx0, _⟩ := C01_build_extract deflate files f hdist hgood hb hsz f.length 2 (Nat.le_refl _) (Nat.le_refl _)
  have hl := buildL_log fmt32 fmt32_wf (files.map SrcFile.entry)
  simp only at hl
  have hperm := List.mergeSort_perm (files.map SrcFile.entry) entryLe
  have hsorted := sorted_entries (files.map SrcFile.entry)
  have hn : ∀ e ∈ (files.map SrcFile.entry).mergeSort entryLe, GoodName e.name := by
    intro e he
    obtain ⟨s, hs', rfl⟩ := List.mem_map.mp (hperm.subset he)
    exact hgood s hs'
  have hnd : (((files.map SrcFile.entry).mergeSort entryLe).map (·.name)).Nodup := by
    rw [(hperm.map _).nodup_iff, List.map_map]; exact hdist
  have hlen : ((files.map SrcFile.entry).mergeSort entryLe).length = files.length := by
    rw [List.length_mergeSort, List.length_map]
  rw [hbytes] at hrec
  change _ = _ ∨ _ at hl
  unfold buildFileL at hrec ⊢
  clear hok hbytes
  generalize (buildL fmt32 ⟨⟨[], 0⟩, []⟩ (files.map SrcFile.entry) 0).1.log = log at *
  generalize hes : (files.map SrcFile.entry).mergeSort entryLe = es at *
  rcases hl with hl | ⟨A, D, hA, hl⟩
  · subst hl
    replace hrec : [] = f := hrec
    subst hrec
    rw [loop_empty] at hx0; cases hx0
  have hAr : replay [] A = startBytes fmt32 es.length ++ D := by
    rw [replay_cont [] 0 A _ (Nat.le_refl _) hA, writeAt_end [] _ 0 rfl, List.nil_append]
  have hsl : (startBytes fmt32 es.length).length = 559 := startBytes_length fmt32 es.length
  rcases hl with hl | ⟨B, C, _, hl, hD, hpl, hne, hlim, htoc⟩
  · rw [hl, hAr] at hrec
    obtain ⟨e, he⟩ := loop_early f D es.length f.length f.length 2 (by rw [hrec, List.take_length]) (by
      intro h0; rw [h0] at hrec
      have := congrArg List.length hrec
      rw [List.length_append, hsl, List.length_nil] at this
      omega)
    rw [he] at hx0; cases hx0
  subst hD
  have hpos : 0 < es.length := by
    rw [← tocOf_length fmt32 559 es]
    exact List.length_pos_iff.mpr hne
  have htl : (tocBytes fmt32 (tocOf fmt32 559 es)).length = 12 * es.length := by
    rw [tocBytes_length, tocOf_length]; rfl
  have hin : 16 ≤ (startBytes fmt32 es.length ++ docsOf fmt32 es).length := by rw [List.length_append]; omega
  rcases htoc with ⟨t1, t2, rfl⟩ | ⟨t1, _⟩
  · have hbl : (blockBytes fmt32 (tocBytes fmt32 (tocOf fmt32 559 es)) (tocBytes fmt32 (tocOf fmt32 559 es)).length 0 fmt32.marker).length =
        31 + (tocBytes fmt32 (tocOf fmt32 559 es)).length := by
      rw [blockBytes_length]; show 31 + _ = _; omega
    have hBne : B ≠ [] := by
      intro h0; subst h0
      have := congrArg List.length (show _ = [] from t2)
      rw [show (fmt32.headerSize + (fmt32.indexBlock + fmt32.blockHeader)) = 559 from rfl, hbl, List.length_nil] at this
      omega
    have hstop := cont_stopped _ 16 B _ hin t2 hBne (31 + 12 * (es.length - 1)) (by
      rw [show (fmt32.headerSize + (fmt32.indexBlock + fmt32.blockHeader)) = 559 from rfl, hbl, htl]; omega)
    have hst2 := stopped_later [] A B [] _ (by rw [hAr]; exact hstop)
    rw [← hl] at hst2
    rw [show (fmt32.headerSize + (fmt32.indexBlock + fmt32.blockHeader)) = 559 from rfl] at hst2
    have hN : 559 + (docsOf fmt32 es).length < 2 ^ 31 := by
      have hfl := congrArg List.length hrec
      rw [hl, List.append_nil, replay_append, hAr, replay_cont _ 16 B _ hin t2, writeAt_inside _ _ _ hin] at hfl
      simp only [List.length_append, List.length_take, List.length_drop] at hfl
      omega
    generalize hg : writeAt (startBytes fmt32 es.length ++ docsOf fmt32 es) 16
      ((blockBytes fmt32 (tocBytes fmt32 (tocOf fmt32 559 es)) (tocBytes fmt32 (tocOf fmt32 559 es)).length 0 fmt32.marker).take
        (31 + 12 * (es.length - 1))) = g at *
    refine ⟨g, .inr hst2, ?_⟩
    have hmm : (31 + 12 * (es.length - 1) - 31) / 12 = es.length - 1 := by
      rw [Nat.add_sub_cancel_left, Nat.mul_div_cancel_left _ (by decide)]
    -- the last entry
    obtain ⟨pre, le, hsplit⟩ : ∃ pre le, es = pre ++ [le] :=
      ⟨es.dropLast, es.getLast (List.length_pos_iff.mp hpos), (List.dropLast_concat_getLast _).symm⟩
    have htake : es.take (es.length - 1) = pre := by
      rw [hsplit]; simp
    obtain ⟨s, hsf, hse⟩ := List.mem_map.mp (hperm.subset (show le ∈ es by rw [hsplit]; simp))
    have hmax : ∀ s' ∈ files, s'.name ≤ s.name := by
      intro s' hs'
      have hmem : s'.entry ∈ es := hperm.symm.subset (List.mem_map.mpr ⟨s', hs', rfl⟩)
      rw [hsplit] at hmem hsorted
      rw [List.map_append, List.pairwise_append] at hsorted
      rcases List.mem_append.mp hmem with hm | hm
      · have := hsorted.2.2 s'.name (List.mem_map.mpr ⟨s'.entry, hm, rfl⟩) le.name (by simp)
        rw [← hse] at this
        exact this
      · rw [List.mem_singleton] at hm
        have h1 : s'.name = s.name := by
          have := congrArg Entry.name (hm.trans hse.symm)
          exact this
        rw [h1]
        exact List.le_refl _
    obtain ⟨l1, l2⟩ := hlast s hsf hmax
    have hdle : (docsOf fmt32 [le]).length ≤ 993 := by
      rw [← hse, docsOf_cons]
      have hlA : (attrBlock fmt32 s.entry).length = 31 + max 0 s.entry.attr.length := blockBytes_length _ _ _ _ _
      have hlD : (dataBlock fmt32 s.entry).length = 31 + max 512 s.data.length := blockBytes_length _ _ _ _ _
      have hat : s.entry.attr.length = 24 + (utf16le s.name).length := by
        simp only [Entry.attr, SrcFile.entry, attrRaw, List.length_append, leBytes_length, List.length_cons, List.length_nil]
        omega
      simp only [List.length_append, hlA, hlD, hat, docsOf, List.flatMap_nil, List.length_nil]
      omega
    have hdd : (docsOf fmt32 es).length = (docsOf fmt32 pre).length + (docsOf fmt32 [le]).length := by
      rw [hsplit]; unfold docsOf; rw [List.flatMap_append, List.length_append]
    refine ⟨pre.map Entry.asRead, s, hsf, hmax, ?_, ?_⟩
    · have := read_spec files es hperm
      rw [hsplit, List.map_append] at this
      rw [← hse] at this
      exact this
    · intro fuel steps hst
      obtain ⟨h1, h2, h3⟩ := outs_short es (31 + 12 * (es.length - 1)) fuel _ g rfl t1 (by omega) hpl (by omega) hN hn hnd hg.symm (by omega)
      rw [hmm, htake] at h3
      obtain ⟨st, rfl⟩ : ∃ st, steps = st + 2 := ⟨steps - 2, by omega⟩
      refine loop_last g es.length fuel st _ h2 h3 ?_ ?_
      · simp only; split <;> omega
      · simp only; rw [h1, if_pos (by omega)]; omega
  · rw [show (fmt32.headerSize + (fmt32.indexBlock + fmt32.blockHeader)) = 559 from rfl, htl] at t1
    have : fmt32.indexBlock = 512 := rfl
    omega

/-- the finished build is one of the states (nothing was interrupted) -/
theorem C71_finished (listing : List Entry) : Stopped (buildFileL listing).1.log (buildFileL listing).1.w.bytes := by
  rw [← (C71_record id listing).2.2]
  generalize (buildFileL listing).1.log = log
  by_cases h : log = []
  · subst h; exact .inl rfl
  · right
    refine ⟨log.dropLast, (log.getLast h).1, (log.getLast h).2, [], (log.getLast h).2.length,
      (List.dropLast_concat_getLast h).symm, Nat.le_refl _, ?_⟩
    rw [List.take_of_length_le (Nat.le_refl _)]
    conv => lhs; rw [← List.dropLast_concat_getLast h, replay_append]
    rfl

/-- two short files: a state exists in which extraction reports success with the first one alone -/
example : ∃ g out, Stopped (buildFileL ([(⟨"a".toList, 5, 6, [1, 2]⟩ : SrcFile), ⟨"b".toList, 7, 8, [3]⟩].map SrcFile.entry)).1.log g ∧
    out.length = 1 ∧ extractLoop g 5 2 0 = .ok [out] := by
  have hgood : ∀ s ∈ [(⟨"a".toList, 5, 6, [1, 2]⟩ : SrcFile), ⟨"b".toList, 7, 8, [3]⟩], GoodName s.name := by
    intro s hs
    rcases List.mem_cons.mp hs with rfl | hs
    · exact ⟨by decide, by decide⟩
    · rw [List.mem_singleton] at hs; subst hs; exact ⟨by decide, by decide⟩
  obtain ⟨f, hf, hl⟩ := C01_build_succeeds id [(⟨"a".toList, 5, 6, [1, 2]⟩ : SrcFile), ⟨"b".toList, 7, 8, [3]⟩] (by simp)
    (by decide) (by decide)
  obtain ⟨g, h1, out, s, h2, h3, h4, h5⟩ := C71_silent_loss_neg id _ f (by decide) (by decide) hgood hf hl (by
    intro s hs _
    rcases List.mem_cons.mp hs with rfl | hs
    · exact ⟨by decide, by decide⟩
    · rw [List.mem_singleton] at hs; subst hs; exact ⟨by decide, by decide⟩)
  refine ⟨g, out, h1, ?_, h5 5 2 (Nat.le_refl _)⟩
  have := h4.length_eq
  simp only [List.length_append, List.length_map, List.length_cons, List.length_nil] at this
  omega

/-- 43 files: the finished file is read back -/
example : ∃ (files : List SrcFile) (g : Bytes) (outs : List (List File)), 42 < files.length ∧ (files.map (·.name)).Nodup ∧
    (∀ s ∈ files, GoodName s.name) ∧ (buildFileL (files.map SrcFile.entry)).1.w.bytes.length < 2 ^ 31 ∧
    Stopped (buildFileL (files.map SrcFile.entry)).1.log g ∧ g ≠ [] ∧ extractLoop g g.length 2 0 = .ok outs := by
  let files : List SrcFile := (List.range 43).map fun n => ⟨List.replicate (n + 1) 'a', 1, 2, [3]⟩
  have hnd : (files.map (·.name)).Nodup := by decide
  have hg : ∀ s ∈ files, GoodName s.name := by
    intro s hs
    obtain ⟨n, _, rfl⟩ := List.mem_map.mp hs
    refine ⟨?_, ?_⟩
    · unfold NoBom; simp [List.replicate_succ]
    · intro c hc
      rw [List.eq_of_mem_replicate hc]; decide
  obtain ⟨f, hf, hl⟩ := C01_build_succeeds id files (by decide) (by decide) (by decide +kernel)
  obtain ⟨out, hx, _⟩ := C01_build_extract id files f hnd hg hf hl f.length 2 (Nat.le_refl _) (Nat.le_refl _)
  have hb := (((C71_record id (files.map SrcFile.entry)).1 f).mp hf).2
  refine ⟨files, f, [out], by decide, hnd, hg, by rw [hb]; exact hl, hb ▸ C71_finished _, ?_, hx⟩
  intro h0
  subst h0
  rw [loop_empty] at hx; cases hx

/-- a folder with a subfolder: the build fails after the header was written -/
example : ∃ g, (buildFileL [⟨"a".toList, .dir⟩]).2 = .error .value ∧ Stopped (buildFileL [⟨"a".toList, .dir⟩]).1.log g ∧ g ≠ [] := by
  have hs : [(⟨"a".toList, .dir⟩ : Entry)].mergeSort entryLe = [⟨"a".toList, .dir⟩] := List.mergeSort_singleton _
  refine ⟨_, ?_, C71_finished _, ?_⟩
  · unfold buildFileL buildL; rw [hs]; rfl
  · unfold buildFileL buildL; rw [hs]; exact List.cons_ne_nil _ _

end V8.Crash
