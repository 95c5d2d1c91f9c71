import Verif.Stage
import Verif.Props.Container
import Verif.Props.Zlib
import Verif.Props.Misc
import Verif.ModuleLemmas
/-
C65: the binary stages.  What is wrapped into a product file is what is found in it again.
-/
namespace V8.Stage
open V8.Brace V8.Enc V8.Zlib

/-! ### specification -/

/-- zlib as far as the tool needs it: compressing does not depend on how the input is cut, decompressing gives back what was compressed, every
portion of 8192 bytes of a compressed stream gives some output unless all of it has been given before, and the first one gives at least four bytes
if there are that many -/
structure ZlibOk (I : Inflater) (D : Deflater) : Prop where
  seamless : D.Seamless
  inverse : ∀ b, oneShot I (deflateOnce D b) = some b
  empty : oneShot I (D.flush D.init) = some []
  loud : ∀ b k, SilentPortion I 8192 k (deflateOnce D b) → oneShot I ((deflateOnce D b).take (k * 8192)) = some b
  prompt : ∀ b s w, I.run I.init ((deflateOnce D b).take 8192) = some (s, w) → min 4 b.length ≤ w.length

/-- the space of a file in a container, over-estimated -/
def size (p : Text × Tree) : Nat := match p.2 with
  | .file b => b.length + 4 * p.1.length + 800
  | .dir _ => 0

/-- a folder of files and of folders of files: names distinct and fit for a container, no file begins like a container -/
structure FolderOk (l : Folder) : Prop where
  names : (l.map (·.1)).Nodup
  good : ∀ p ∈ l, GoodName p.1
  file : ∀ n b, (n, Tree.file b) ∈ l → b.take 4 ≠ mark
  dir : ∀ n s, (n, Tree.dir s) ∈ l → s ≠ [] ∧ (s.map (·.1)).Nodup ∧ (∀ p ∈ s, GoodName p.1 ∧ ∃ b, p.2 = .file b ∧ b.take 4 ≠ mark) ∧
    (s.map size).sum + 2000 < 2 ^ 31
  info : ∀ t, (V8.Misc.configinfoName, t) ∈ l → ∃ u, t = .file (utf8 u)

/-- the times of files fit into the container -/
def TimesOk (d : Disk) : Prop := ∀ p, (d.times p).1 < 2 ^ 64 ∧ (d.times p).2 < 2 ^ 64

/-! ### lists -/

theorem find_none {α : Type} {l : List (Text × α)} {n : Text} (h : n ∉ l.map (·.1)) : find l n = none := by
  unfold find
  rw [Option.map_eq_none_iff, List.find?_eq_none]
  intro p hp he
  exact h (List.mem_map.mpr ⟨p, hp, of_decide_eq_true he⟩)

theorem find_mem {α : Type} {l : List (Text × α)} {n : Text} {v : α} (h : find l n = some v) : (n, v) ∈ l := by
  unfold find at h
  rw [Option.map_eq_some_iff] at h
  obtain ⟨p, hp, rfl⟩ := h
  have h1 := List.find?_some hp
  have h2 : p.1 = n := of_decide_eq_true h1
  rw [← h2]
  exact List.mem_of_find?_eq_some hp

theorem find_of {α : Type} : ∀ {l : List (Text × α)} {n : Text} {v : α}, (l.map (·.1)).Nodup → (n, v) ∈ l → find l n = some v
  | [], _, _, _, h => by cases h
  | (m, w) :: l, n, v, hn, h => by
    rw [List.map_cons, List.nodup_cons] at hn
    unfold find
    rw [List.find?_cons]
    rcases List.mem_cons.mp h with h | h
    · cases h
      simp
    · have hne : m ≠ n := fun e => hn.1 (e ▸ List.mem_map.mpr ⟨_, h, rfl⟩)
      simp only [decide_eq_false hne]
      exact find_of hn.2 h

/-- the entry of a name does not depend on the order of the listing -/
theorem find_perm {α : Type} {l l' : List (Text × α)} (hp : l.Perm l') (hn : (l.map (·.1)).Nodup) (n : Text) : find l n = find l' n := by
  have hn' : (l'.map (·.1)).Nodup := (hp.map _).nodup_iff.mp hn
  cases h : find l' n with
  | some v => exact find_of hn (hp.mem_iff.mpr (find_mem h))
  | none =>
    cases h2 : find l n with
    | none => rfl
    | some v => rw [find_of hn' (hp.mem_iff.mp (find_mem h2))] at h; cases h

theorem mapExcept_of {α β : Type} {g : α → Except Err β} : ∀ (l : List α) (h : α → β), (∀ a ∈ l, g a = .ok (h a)) → mapExcept g l = .ok (l.map h)
  | [], _, _ => rfl
  | a :: l, h, hl => by
    rw [mapExcept, hl a List.mem_cons_self]
    simp only
    rw [mapExcept_of l h (fun b hb => hl b (List.mem_cons_of_mem _ hb))]
    rfl

theorem mapExcept_some {α β : Type} {g : α → Except Err β} : ∀ (l : List α) (r : List β), mapExcept g l = .ok r → List.Forall₂ (fun a b => g a = .ok b) l r
  | [], r, h => by cases h; exact .nil
  | a :: l, r, h => by
    rw [mapExcept] at h
    cases ha : g a with
    | error e => rw [ha] at h; cases h
    | ok b =>
      rw [ha] at h
      simp only at h
      cases hl : mapExcept g l with
      | error e => rw [hl] at h; cases h
      | ok bs =>
        rw [hl] at h
        cases h
        exact .cons ha (mapExcept_some l bs hl)

/-! ### bytes of texts -/

theorem utf8_head (t : Text) : (utf8 t).head? ≠ some 0xFF := by
  cases t with
  | nil => rw [show utf8 [] = [] by decide +kernel]; simp
  | cons c t =>
    have h : utf8 (c :: t) = String.utf8EncodeChar c ++ utf8 t := by
      unfold utf8
      rw [List.utf8Encode, List.utf8Encode, List.flatMap_cons]
      simp
    have hc : ∃ b r, String.utf8EncodeChar c = b :: r ∧ b ≠ 0xFF := by
      unfold String.utf8EncodeChar
      simp only
      have hlt : ∀ n, n < 255 → UInt8.ofNat n ≠ 0xFF := by
        intro n hn he
        have := congrArg UInt8.toNat he
        rw [UInt8.toNat_ofNat', Nat.mod_eq_of_lt (by omega)] at this
        have h2 : (0xFF : UInt8).toNat = 255 := rfl
        omega
      split
      · exact ⟨_, _, rfl, hlt _ (by omega)⟩
      · split
        · exact ⟨_, _, rfl, hlt _ (by omega)⟩
        · split
          · exact ⟨_, _, rfl, hlt _ (by omega)⟩
          · exact ⟨_, _, rfl, hlt _ (by omega)⟩
    obtain ⟨b, r, hb, hne⟩ := hc
    rw [h, hb, List.cons_append, List.head?_cons]
    exact fun e => hne (Option.some.inj e)

/-- a text is not taken for a container -/
theorem utf8_mark (t : Text) (r : Bytes) (hr : utf8 t = [] → r.take 4 ≠ mark) : (utf8 t ++ r).take 4 ≠ mark := by
  intro h
  cases hu : utf8 t with
  | nil => rw [hu, List.nil_append] at h; exact hr hu h
  | cons b s =>
    have := utf8_head t
    rw [hu] at this h
    rw [List.cons_append, List.take_succ_cons] at h
    injection h with h1 h2
    exact this (by rw [h1]; rfl)

/-! ### one stored file -/

theorem prefix_nil_of {I : Inflater} {a : Bytes} (h : oneShot I a = some []) : decompressFile I a = some [] := by
  obtain ⟨w, r, h1, h2⟩ := C08_prefix I a [] h
  have := (List.append_eq_nil_iff.mp h2.symm).1
  rw [h1, this]

/-- what was compressed is decompressed -/
theorem decompress_compress {I : Inflater} {D : Deflater} (hz : ZlibOk I D) (b : Bytes) : decompressFile I (compressFile D b) = some b := by
  by_cases hb : b = []
  · subst hb
    rw [C09_compress_empty]
    exact prefix_nil_of hz.empty
  · rw [C09_compress D hz.seamless b hb]
    exact (C08_iff I _ b (hz.inverse b)).mpr (hz.loud b)

theorem run_take {I : Inflater} {a o : Bytes} (h : oneShot I a = some o) (n : Nat) : ∃ s w r, I.run I.init (a.take n) = some (s, w) ∧ o = w ++ r := by
  rw [oneShot, Option.map_eq_some_iff] at h
  obtain ⟨p, hp, rfl⟩ := h
  have e := run_append I (a.take n) (a.drop n) I.init
  rw [List.take_append_drop, hp] at e
  cases h1 : I.run I.init (a.take n) with
  | none => rw [h1] at e; cases e
  | some q =>
    rw [h1] at e
    simp only at e
    cases h2 : I.run q.1 (a.drop n) with
    | none => rw [h2] at e; cases e
    | some q2 =>
      rw [h2] at e
      simp only [Option.some.injEq] at e
      exact ⟨q.1, q.2, q2.2, rfl, by rw [e]⟩

/-- a stored file looks like a container exactly when its content begins like one -/
theorem looks_iff {I : Inflater} {D : Deflater} (hz : ZlibOk I D) (b : Bytes) : looksLikeContainer I (compressFile D b) = decide (b.take 4 = mark) := by
  by_cases hb : b = []
  · subst hb
    rw [C09_compress_empty]
    obtain ⟨s, w, r, h1, h2⟩ := run_take hz.empty 8192
    unfold looksLikeContainer
    rw [h1, (List.append_eq_nil_iff.mp h2.symm).1]
    rfl
  · rw [C09_compress D hz.seamless b hb]
    obtain ⟨s, w, r, h1, h2⟩ := run_take (hz.inverse b) 8192
    unfold looksLikeContainer
    rw [h1]
    have hp := hz.prompt b s w h1
    have : w.take 4 = b.take 4 := by
      by_cases h4 : 4 ≤ w.length
      · rw [h2, List.take_append_of_le_length h4]
      · have hl := congrArg List.length h2
        rw [List.length_append] at hl
        have hr : r = [] := List.length_eq_zero_iff.mp (by omega)
        rw [h2, hr, List.append_nil]
    show decide (w.take 4 = mark) = _
    rw [this]

theorem open_file {I : Inflater} {D : Deflater} (hz : ZlibOk I D) (fuel n : Nat) (b : Bytes) (hb : b.take 4 ≠ mark) :
    openStored I fuel n (compressFile D b) = .ok (.file b) := by
  unfold openStored
  rw [decompress_compress hz b]
  simp only
  rw [looks_iff hz, decide_eq_false hb]
  rfl

/-! ### a folder in a container -/

/-- the files of a folder as the sources of a container -/
def srcOf (d : Disk) (path : List Text) (p : Text × Tree) : SrcFile :=
  ⟨p.1, (d.times (path ++ [p.1])).1, (d.times (path ++ [p.1])).2, match p.2 with | .file b => b | .dir _ => []⟩

theorem entries_src (d : Disk) (path : List Text) : ∀ (s : Folder), (∀ p ∈ s, ∃ b, p.2 = .file b) →
    s.map (entryOf d path) = (s.map (srcOf d path)).map SrcFile.entry
  | [], _ => rfl
  | (m, t) :: s, h => by
    obtain ⟨b, hb⟩ := h (m, t) List.mem_cons_self
    simp only at hb
    subst hb
    rw [List.map_cons, List.map_cons, List.map_cons, entries_src d path s (fun p hp => h p (List.mem_cons_of_mem _ hp))]
    rfl

theorem container_mark (deflate : Bytes → Bytes) (l : List Entry) (w : WFile) (h : buildContainer fmt32 deflate ⟨[], 0⟩ l true 0 = .ok w) :
    w.bytes.take 4 = mark := by
  obtain ⟨_, _, T, X, hb, _⟩ := build_shape fmt32 fmt32_wf deflate l w h
  rw [hb]
  have : leBytes fmt32.idxW fmt32.marker = mark := by decide
  rw [headerBytes, this]
  rfl

/-- a folder of files comes back from its container -/
theorem dir_back (d : Disk) (ht : TimesOk d) (path : List Text) (s : Folder) (hne : s ≠ []) (hnd : (s.map (·.1)).Nodup)
    (hs : ∀ p ∈ s, GoodName p.1 ∧ ∃ b, p.2 = .file b ∧ b.take 4 ≠ mark) (hsz : (s.map size).sum + 2000 < 2 ^ 31) (fuel n : Nat) (hf : 2 ^ 31 ≤ fuel) :
    ∃ w s', buildContainer fmt32 d.deflate ⟨[], 0⟩ (s.map (entryOf d path)) true 0 = .ok w ∧ w.bytes.take 4 = mark ∧
      openContainer fuel (expand fuel n) w.bytes = .ok (.dir s') ∧ s'.Perm s := by
  have hfile : ∀ p ∈ s, ∃ b, p.2 = Tree.file b := fun p hp => let ⟨_, b, h, _⟩ := hs p hp; ⟨b, h⟩
  have hent := entries_src d path s hfile
  have hcost : ((s.map (srcOf d path)).map SrcFile.cost).sum = (s.map size).sum := by
    rw [List.map_map]
    congr 1
    refine List.map_congr_left (fun p hp => ?_)
    obtain ⟨b, hb⟩ := hfile p hp
    show SrcFile.cost (srcOf d path p) = size p
    unfold SrcFile.cost srcOf size
    rw [hb]
  obtain ⟨f, hb, hl⟩ := C01_build_succeeds d.deflate (s.map (srcOf d path)) (by simpa using hne)
    (by intro q hq; obtain ⟨p, _, rfl⟩ := List.mem_map.mp hq; exact ht _) (by rw [hcost]; exact hsz)
  rw [← hent] at hb
  simp only [buildFile] at hb
  cases hw : buildContainer fmt32 d.deflate ⟨[], 0⟩ (s.map (entryOf d path)) true 0 with
  | error e => rw [hw] at hb; cases hb
  | ok w =>
    rw [hw] at hb
    simp only [Except.ok.injEq] at hb
    subst hb
    obtain ⟨r, hr, _, hfiles⟩ := read_build fmt32 fmt32_wf d.deflate _ w hw (by exact hl)
      (by intro e he; obtain ⟨p, hp, rfl⟩ := List.mem_map.mp he; exact (hs p hp).1)
      (by rw [List.map_map]; exact hnd) fuel (by omega)
    have hperm : ((s.map (entryOf d path)).mergeSort entryLe).Perm (s.map (entryOf d path)) := List.mergeSort_perm _ _
    have hp2 := hperm.map Entry.asRead
    rw [← hfiles] at hp2
    have hr2 : (r.files.map (fun f => (f.name, Tree.file f.data))).Perm s := by
      have h3 := hp2.map (fun f : File => (f.name, Tree.file f.data))
      rw [List.map_map, List.map_map] at h3
      have : (s.map ((fun f : File => (f.name, Tree.file f.data)) ∘ Entry.asRead ∘ entryOf d path)) = s := by
        conv => rhs; rw [← List.map_id s]
        refine List.map_congr_left (fun p hp => ?_)
        obtain ⟨b, hb⟩ := hfile p hp
        obtain ⟨m, t⟩ := p
        simp only at hb
        subst hb
        rfl
      exact this ▸ h3
    refine ⟨w, r.files.map (fun f => (f.name, Tree.file f.data)), rfl, container_mark _ _ _ hw, ?_, hr2⟩
    unfold openContainer
    rw [hr]
    simp only
    rw [mapExcept_of r.files (fun f => (f.name, Tree.file f.data))]
    intro f hfm
    have hm : (f.name, Tree.file f.data) ∈ s := hr2.mem_iff.mp (List.mem_map.mpr ⟨f, hfm, rfl⟩)
    obtain ⟨_, b, hb, hmk⟩ := hs _ hm
    simp only [Tree.file.injEq] at hb
    rw [← hb] at hmk
    have : expand fuel n f.data = .ok (.file f.data) := by
      cases n <;> (rw [expand, if_neg hmk])
    rw [this]

/-! ### the whole folder -/

/-- two trees that look the same -/
def Like (a b : Tree) : Prop := match a, b with
  | .file x, .file y => x = y
  | .dir s, .dir t => s.Perm t ∧ (t.map (·.1)).Nodup
  | _, _ => False

theorem view_like {l l' : Folder} {n : Text} {a b : Tree} (h1 : find l n = some a) (h2 : find l' n = some b) (h : Like a b) : view l n = view l' n := by
  unfold view
  rw [h1, h2, Option.map_some, Option.map_some]
  cases a with
  | file x =>
    cases b with
    | file y => simp only [Like] at h; rw [h]
    | dir t => exact h.elim
  | dir s =>
    cases b with
    | file y => exact h.elim
    | dir t =>
      have hn : (s.map (·.1)).Nodup := (h.1.map _).nodup_iff.mpr h.2
      have : find s = find t := funext fun m => find_perm h.1 hn m
      simp only [this]

/-- every entry is stored and comes back -/
theorem entry_back {I : Inflater} {d : Disk} (hz : ZlibOk I d.D) (ht : TimesOk d) {l : Folder} (ok : FolderOk l) (fuel n : Nat) (hf : 2 ^ 31 ≤ fuel)
    (p : Text × Tree) (hp : p ∈ l) : ∃ b t, storedOf d p = .ok (p.1, b) ∧ openStored I fuel n b = .ok t ∧ Like t p.2 := by
  obtain ⟨m, a⟩ := p
  cases a with
  | file b => exact ⟨_, _, rfl, open_file hz fuel n b (ok.file m b hp), rfl⟩
  | dir s =>
    obtain ⟨h1, h2, h3, h4⟩ := ok.dir m s hp
    obtain ⟨w, s', g1, g2, g3, g4⟩ := dir_back d ht [m] s h1 h2 h3 h4 fuel n hf
    refine ⟨compressFile d.D w.bytes, .dir s', ?_, ?_, g4, h2⟩
    · unfold storedOf
      simp only
      rw [g1]
    · unfold openStored
      rw [decompress_compress hz]
      simp only
      rw [looks_iff hz, decide_eq_true g2, if_pos rfl, g3]

theorem forall2_names {l : Folder} {s : List (Text × Bytes)} {d : Disk} (h : List.Forall₂ (fun a b => storedOf d a = .ok b) l s) :
    s.map (·.1) = l.map (·.1) := by
  induction h with
  | nil => rfl
  | @cons a b l s hab _ ih =>
    rw [List.map_cons, List.map_cons, ih]
    congr 1
    obtain ⟨m, t⟩ := a
    cases t with
    | file x => simp only [storedOf, Except.ok.injEq] at hab; rw [← hab]
    | dir x =>
      simp only [storedOf] at hab
      cases hw : buildContainer fmt32 d.deflate ⟨[], 0⟩ (x.map (entryOf d [m])) true 0 with
      | error e => rw [hw] at hab; cases hab
      | ok w => rw [hw] at hab; simp only [Except.ok.injEq] at hab; rw [← hab]

theorem forall2_mem {α β : Type} {R : α → β → Prop} {l : List α} {s : List β} (h : List.Forall₂ R l s) {b : β} (hb : b ∈ s) : ∃ a ∈ l, R a b := by
  induction h with
  | nil => cases hb
  | @cons a c l s hab _ ih =>
    rcases List.mem_cons.mp hb with rfl | hb
    · exact ⟨a, List.mem_cons_self, hab⟩
    · obtain ⟨a', h1, h2⟩ := ih hb
      exact ⟨a', List.mem_cons_of_mem _ h1, h2⟩

/-- the stored files of stage 0 open to what they were made of -/
structure StoredOk (I : Inflater) (d : Disk) (l : Folder) (fuel n : Nat) (s : List (Text × Bytes)) : Prop where
  names : s.map (·.1) = l.map (·.1)
  other : ∀ p ∈ s, p.1 ≠ V8.Misc.configinfoName → ∃ t, openStored I fuel n p.2 = .ok t ∧ ∃ a, (p.1, a) ∈ l ∧ Like t a
  info : ∀ p ∈ s, p.1 = V8.Misc.configinfoName → ∃ b b' st, (p.1, Tree.file b) ∈ l ∧ mapExcept (storedOf d) l = .ok st ∧
    stamped d st b = some b' ∧ openStored I fuel n p.2 = .ok (.file b')

theorem stored_ok {I : Inflater} {d : Disk} (hz : ZlibOk I d.D) (ht : TimesOk d) {l : Folder} (ok : FolderOk l) (fuel n : Nat) (hf : 2 ^ 31 ≤ fuel)
    {s : List (Text × Bytes)} (h : stored d l = .ok s) : StoredOk I d l fuel n s := by
  unfold stored at h
  cases hm : mapExcept (storedOf d) l with
  | error e => rw [hm] at h; cases h
  | ok st =>
    rw [hm] at h
    simp only at h
    have hall := mapExcept_some l st hm
    have hnames := forall2_names hall
    have hopen : ∀ p ∈ st, ∃ t, openStored I fuel n p.2 = .ok t ∧ ∃ a, (p.1, a) ∈ l ∧ Like t a := by
      intro p hp
      obtain ⟨a, ha, hs⟩ := forall2_mem hall hp
      obtain ⟨b, t, h1, h2, h3⟩ := entry_back hz ht ok fuel n hf a ha
      rw [hs] at h1
      simp only [Except.ok.injEq] at h1
      rw [h1]
      exact ⟨t, h2, a.2, ha, h3⟩
    unfold signed at h
    by_cases hc : st.any (fun p => decide (p.1 = V8.Misc.configinfoName)) = true
    · rw [if_pos hc] at h
      rw [List.any_eq_true] at hc
      obtain ⟨q, hq, hqn⟩ := hc
      have hqn := of_decide_eq_true hqn
      have hin : V8.Misc.configinfoName ∈ l.map (·.1) := by
        rw [← hnames, ← hqn]; exact List.mem_map.mpr ⟨q, hq, rfl⟩
      obtain ⟨a, ha, hae⟩ := List.mem_map.mp hin
      obtain ⟨u, hu⟩ := ok.info a.2 (by rw [← hae]; exact ha)
      have hmem : (V8.Misc.configinfoName, Tree.file (utf8 u)) ∈ l := by rw [← hae, ← hu]; exact ha
      rw [find_of ok.names hmem] at h
      simp only at h
      cases hst : stamped d st (utf8 u) with
      | none => rw [hst] at h; cases h
      | some b' =>
        rw [hst] at h
        simp only [Except.ok.injEq] at h
        subst h
        have hb' : b'.take 4 ≠ mark := by
          have hmk := ok.file _ _ hmem
          unfold stamped at hst
          rw [utf8Text_utf8, Option.map_some, Option.some.injEq] at hst
          rw [← hst]
          refine utf8_mark _ _ (fun he => ?_)
          rw [he, List.length_nil, List.drop_zero]
          exact hmk
        refine ⟨?_, ?_, ?_⟩
        · rw [← hnames, List.map_map]
          refine List.map_congr_left (fun p _ => ?_)
          show (if p.1 = _ then _ else p).1 = _
          by_cases hp : p.1 = V8.Misc.configinfoName
          · rw [if_pos hp]
          · rw [if_neg hp]
        · intro p hp hne
          obtain ⟨p0, hp0, rfl⟩ := List.mem_map.mp hp
          by_cases hp1 : p0.1 = V8.Misc.configinfoName
          · rw [if_pos hp1] at hne; exact absurd hp1 hne
          · rw [if_neg hp1]
            exact hopen p0 hp0
        · intro p hp he
          obtain ⟨p0, hp0, rfl⟩ := List.mem_map.mp hp
          by_cases hp1 : p0.1 = V8.Misc.configinfoName
          · rw [if_pos hp1]
            exact ⟨utf8 u, b', st, by rw [hp1]; exact hmem, hm, hst, open_file hz fuel n b' hb'⟩
          · rw [if_neg hp1] at he
            exact absurd he hp1
    · rw [if_neg hc] at h
      simp only [Except.ok.injEq] at h
      subst h
      refine ⟨hnames, fun p hp _ => hopen p hp, fun p hp he => ?_⟩
      exact absurd (List.any_eq_true.mpr ⟨p, hp, decide_eq_true he⟩) hc

/-- what is found in the product file again -/
theorem openFiles_ok {I : Inflater} {d : Disk} {l : Folder} {fuel n : Nat} {s : List (Text × Bytes)} (hs : StoredOk I d l fuel n s)
    {files : List File} (hp : files.Perm (s.map (fun p => ⟨p.1, p.2.length, parseDatetime (d.times [p.1]).1, parseDatetime (d.times [p.1]).2, p.2⟩))) :
    ∃ out, openFiles I fuel n files = .ok out ∧ out.map (·.1) = files.map (·.name) ∧
      ∀ p ∈ out, ∃ q ∈ s, q.1 = p.1 ∧ openStored I fuel n q.2 = .ok p.2 := by
  have hopen : ∀ f ∈ files, ∃ t, openStored I fuel n f.data = .ok t ∧ ∃ q ∈ s, q.1 = f.name ∧ q.2 = f.data := by
    intro f hf
    obtain ⟨q, hq, rfl⟩ := List.mem_map.mp (hp.mem_iff.mp hf)
    by_cases hc : q.1 = V8.Misc.configinfoName
    · obtain ⟨b, b', st, _, _, _, h⟩ := hs.info q hq hc
      exact ⟨_, h, q, hq, rfl, rfl⟩
    · obtain ⟨t, h, _⟩ := hs.other q hq hc
      exact ⟨t, h, q, hq, rfl, rfl⟩
  clear hp
  induction files with
  | nil => exact ⟨[], rfl, rfl, fun p hp => by cases hp⟩
  | cons f fs ih =>
    obtain ⟨out, h1, h2, h3⟩ := ih (fun g hg => hopen g (List.mem_cons_of_mem _ hg))
    obtain ⟨t, ht, q, hq, hq1, hq2⟩ := hopen f List.mem_cons_self
    refine ⟨(f.name, t) :: out, ?_, ?_, ?_⟩
    · unfold openFiles at h1 ⊢
      rw [mapExcept, ht]
      simp only
      rw [h1]
    · rw [List.map_cons, List.map_cons, h2]
    · intro p hp
      rcases List.mem_cons.mp hp with rfl | hp
      · exact ⟨q, hq, hq1, by rw [hq2]; exact ht⟩
      · exact h3 p hp

/-- **C65.**  A product file that was built from a folder of files and module folders, and is smaller than 2 GiB: taking it apart finds exactly one
container, and in its folder every name that was in the folder, each with its content - a file with its bytes, a module folder with its files and
their bytes; nothing else.  The one file that differs is `configinfo`: in it the placeholder is replaced by the table of digests of the stored
files.  This holds for every zlib that satisfies ZlibOk, whatever the times of the files and the order of the listings. -/
theorem C65_wrap_unwrap (I : Inflater) (d : Disk) (l : Folder) (f : Bytes) (hz : ZlibOk I d.D) (ht : TimesOk d) (ok : FolderOk l)
    (h : wrap d l = .ok f) (hsz : f.length < 2 ^ 31) (fuel steps n : Nat) (hf : 2 ^ 31 ≤ fuel) (hst : 2 ≤ steps) :
    ∃ out, unwrap I fuel steps n f = .ok [out] ∧ (out.map (·.1)).Perm (l.map (·.1)) ∧
      (∀ m, m ≠ V8.Misc.configinfoName → view out m = view l m) ∧
      (∀ b, find l V8.Misc.configinfoName = some (.file b) → ∃ st b', mapExcept (storedOf d) l = .ok st ∧ stamped d st b = some b' ∧
        view out V8.Misc.configinfoName = some (.file b')) := by
  unfold wrap at h
  cases hs : stored d l with
  | error e => rw [hs] at h; cases h
  | ok s =>
    rw [hs] at h
    simp only at h
    have hso := stored_ok hz ht ok fuel n hf hs
    have he : s.map (storedEntry d) = (s.map (fun p => (⟨p.1, (d.times [p.1]).1, (d.times [p.1]).2, p.2⟩ : SrcFile))).map SrcFile.entry := by
      rw [List.map_map]; rfl
    rw [he] at h
    obtain ⟨files, h1, h2, _⟩ := C01_build_extract d.deflate _ f
      (by rw [List.map_map]; show (s.map (·.1)).Nodup; rw [hso.names]; exact ok.names)
      (by
        intro q hq
        obtain ⟨p, hp, rfl⟩ := List.mem_map.mp hq
        have : p.1 ∈ l.map (·.1) := by rw [← hso.names]; exact List.mem_map.mpr ⟨p, hp, rfl⟩
        obtain ⟨a, ha, hae⟩ := List.mem_map.mp this
        show GoodName p.1
        rw [← hae]
        exact ok.good a ha) h hsz fuel steps (by omega) hst
    rw [List.map_map] at h2
    obtain ⟨out, o1, o2, o3⟩ := openFiles_ok hso (files := files) h2
    have hperm : (out.map (·.1)).Perm (l.map (·.1)) := by
      rw [o2, ← hso.names]
      have := h2.map (·.name)
      rw [List.map_map] at this
      exact this
    have hnd : (out.map (·.1)).Nodup := hperm.nodup_iff.mpr ok.names
    refine ⟨out, ?_, hperm, ?_, ?_⟩
    · unfold unwrap
      rw [h1]
      simp only [mapExcept, o1]
    · intro m hm
      by_cases hin : m ∈ out.map (·.1)
      · obtain ⟨p, hp, rfl⟩ := List.mem_map.mp hin
        obtain ⟨q, hq, hq1, hq2⟩ := o3 p hp
        obtain ⟨t, k1, a, k2, k3⟩ := hso.other q hq (by rw [hq1]; exact hm)
        rw [hq2] at k1
        simp only [Except.ok.injEq] at k1
        rw [← k1] at k3
        rw [hq1] at k2
        exact view_like (find_of hnd hp) (find_of ok.names k2) k3
      · unfold view
        rw [find_none hin, find_none (fun hc => hin (hperm.mem_iff.mpr hc))]
    · intro b hb
      have hin : V8.Misc.configinfoName ∈ out.map (·.1) := hperm.mem_iff.mpr (List.mem_map.mpr ⟨_, find_mem hb, rfl⟩)
      obtain ⟨p, hp, hpe⟩ := List.mem_map.mp hin
      obtain ⟨q, hq, hq1, hq2⟩ := o3 p hp
      obtain ⟨b0, b', st, k1, k2, k3, k4⟩ := hso.info q hq (by rw [hq1]; exact hpe)
      rw [hq1, hpe] at k1
      rw [find_of ok.names k1] at hb
      simp only [Option.some.injEq, Tree.file.injEq] at hb
      rw [hb] at k3
      rw [hq2] at k4
      simp only [Except.ok.injEq] at k4
      refine ⟨st, b', k2, k3, ?_⟩
      unfold view
      rw [← hpe, find_of hnd hp, k4]
      rfl

/-! ### configinfo -/

theorem utf8_append (a b : Text) : utf8 (a ++ b) = utf8 a ++ utf8 b := by
  unfold utf8
  simp [List.utf8Encode]

theorem osWrite_append (win : Bool) (a b : Text) : osWrite win (a ++ b) = osWrite win a ++ osWrite win b := by
  cases win with
  | false => rfl
  | true => simp [osWrite]

theorem utf8_long : ∀ t : Text, t.length ≤ (utf8 t).length
  | [] => Nat.zero_le _
  | c :: t => by
    have h : utf8 (c :: t) = String.utf8EncodeChar c ++ utf8 t := by
      unfold utf8
      simp [List.utf8Encode]
    have h1 := utf8_long t
    have h2 : 1 ≤ (String.utf8EncodeChar c).length := by
      rw [String.length_utf8EncodeChar]
      exact Char.utf8Size_pos c
    rw [h, List.length_append, List.length_cons]
    omega

theorem osWrite_long (win : Bool) (t : Text) : t.length ≤ (osWrite win t).length := by
  cases win with
  | false => exact Nat.le_refl _
  | true =>
    induction t with
    | nil => exact Nat.le_refl _
    | cons c t ih =>
      rw [← List.singleton_append, osWrite_append, List.length_append, List.length_append]
      have : 1 ≤ (osWrite true [c]).length := by
        unfold osWrite
        simp only [List.flatMap_cons, List.flatMap_nil, List.append_nil, if_true]
        split <;> simp
      simp only [List.length_singleton]
      omega

/-- **C65, configinfo.**  A description of the usual form - a text with one placeholder, written by the tool on this system - in a folder with at
least one other file, and digests like those of SHA-1: the file in the product is the description with the table of the digests of the other stored
files in place of the placeholder; nothing is left over and nothing else changes. -/
theorem C65_configinfo (d : Disk) (st : List (Text × Bytes)) (pre post : Text) (f : Text × Bytes) (hf : f ∈ st)
    (hf2 : f.1 ≠ V8.Misc.configinfoName) (hd : (d.digest f.2).length = 28) (hx : '#' ∉ d.digest f.2)
    (h1 : ¬ V8.Misc.placeholder <:+: pre) (h2 : ¬ V8.Misc.placeholder <:+: post) (hr : '\r' ∉ pre ++ post) :
    stamped d st (utf8 (osWrite d.win (pre ++ (V8.Misc.placeholder ++ post)))) =
      some (utf8 (osWrite d.win (pre ++ encRoot [V8.Misc.versionsList d.digest st] ++ post))) := by
  have hr' : '\r' ∉ pre ++ (V8.Misc.placeholder ++ post) := by
    intro h
    rcases List.mem_append.mp h with h | h
    · exact hr (List.mem_append_left _ h)
    · rcases List.mem_append.mp h with h | h
      · revert h; decide
      · exact hr (List.mem_append_right _ h)
  have hlen : 18 ≤ (encRoot [V8.Misc.versionsList d.digest st]).length := by
    obtain ⟨kept, hp, _, he⟩ := V8.Misc.C43_table d.digest st
    have hm : Val.str (d.digest f.2) ∈ V8.Misc.versionsList d.digest st := by
      rw [he]
      refine List.mem_cons_of_mem _ (List.mem_flatMap.mpr ⟨f, ?_, by simp⟩)
      rw [hp.mem_iff, List.mem_filter]
      exact ⟨hf, by simpa using hf2⟩
    have hl := V8.Misc.encElems_mem ['\r', '\n'] _ _ hm
    have hs : encStr ['\r', '\n'] (d.digest f.2) = d.digest f.2 := by
      have ha : ("#base64:".toList.isPrefixOf (d.digest f.2)) = false := by
        rw [Bool.eq_false_iff, ne_eq, List.isPrefixOf_iff_prefix]
        intro hh; exact hx (hh.subset (by decide))
      have hb : ("##base64:".toList.isPrefixOf (d.digest f.2)) = false := by
        rw [Bool.eq_false_iff, ne_eq, List.isPrefixOf_iff_prefix]
        intro hh; exact hx (hh.subset (by decide))
      rw [encStr, ha, hb, hd]
      rfl
    rw [hs, hd] at hl
    rw [encRoot, encRootWith, encObject, List.length_append, List.length_cons]
    omega
  unfold stamped
  rw [utf8Text_utf8, Option.map_some]
  simp only
  rw [V8.Module.universal_osWrite d.win _ hr', V8.Misc.replace_one _ _ _ h1 h2]
  generalize encRoot [V8.Misc.versionsList d.digest st] = w at *
  rw [List.drop_eq_nil_of_le, List.append_nil]
  rw [osWrite_append, osWrite_append, osWrite_append, osWrite_append, utf8_append, utf8_append, utf8_append, utf8_append]
  simp only [List.length_append]
  have h18 : (utf8 (osWrite d.win V8.Misc.placeholder)).length = 18 := by cases d.win <;> decide +kernel
  have := utf8_long (osWrite d.win w)
  have := osWrite_long d.win w
  omega

/-- **C65, the build succeeds** whenever the stored files fit into 2 GiB. -/
theorem C65_wrap_succeeds (d : Disk) (l : Folder) (ht : TimesOk d) (ok : FolderOk l) (hne : l ≠ [])
    (hsz : ∀ s, stored d l = .ok s → (s.map (fun p => p.2.length + 4 * p.1.length + 800)).sum + 2000 < 2 ^ 31) :
    ∃ f, wrap d l = .ok f ∧ f.length < 2 ^ 31 := by
  have hst : ∃ st, mapExcept (storedOf d) l = .ok st := by
    have : ∀ p ∈ l, ∃ b, storedOf d p = .ok (p.1, b) := by
      rintro ⟨m, a⟩ hp
      cases a with
      | file b => exact ⟨_, rfl⟩
      | dir s =>
        obtain ⟨h1, h2, h3, h4⟩ := ok.dir m s hp
        obtain ⟨w, s', g1, _⟩ := dir_back d ht [m] s h1 h2 h3 h4 (2 ^ 31) 0 (Nat.le_refl _)
        refine ⟨compressFile d.D w.bytes, ?_⟩
        unfold storedOf
        simp only
        rw [g1]
    clear hsz hne ok
    induction l with
    | nil => exact ⟨[], rfl⟩
    | cons p l ih =>
      obtain ⟨st, h⟩ := ih (fun q hq => this q (List.mem_cons_of_mem _ hq))
      obtain ⟨b, hb⟩ := this p List.mem_cons_self
      refine ⟨(p.1, b) :: st, ?_⟩
      rw [mapExcept, hb]
      simp only
      rw [h]
  obtain ⟨st, hst⟩ := hst
  have hnames := forall2_names (mapExcept_some l st hst)
  have hs : ∃ s, stored d l = .ok s ∧ s ≠ [] := by
    unfold stored
    rw [hst]
    simp only
    have hst0 : st ≠ [] := by
      intro h0
      rw [h0] at hnames
      exact hne (List.map_eq_nil_iff.mp hnames.symm)
    unfold signed
    by_cases hc : st.any (fun p => decide (p.1 = V8.Misc.configinfoName)) = true
    · rw [if_pos hc]
      rw [List.any_eq_true] at hc
      obtain ⟨q, hq, hqn⟩ := hc
      have hqn := of_decide_eq_true hqn
      have hin : V8.Misc.configinfoName ∈ l.map (·.1) := by
        rw [← hnames, ← hqn]; exact List.mem_map.mpr ⟨q, hq, rfl⟩
      obtain ⟨a, ha, hae⟩ := List.mem_map.mp hin
      obtain ⟨u, hu⟩ := ok.info a.2 (by rw [← hae]; exact ha)
      have hmem : (V8.Misc.configinfoName, Tree.file (utf8 u)) ∈ l := by rw [← hae, ← hu]; exact ha
      rw [find_of ok.names hmem]
      simp only [stamped, utf8Text_utf8, Option.map_some]
      exact ⟨_, rfl, by simpa using hst0⟩
    · rw [if_neg hc]
      exact ⟨st, rfl, hst0⟩
  obtain ⟨s, hs, hs0⟩ := hs
  have he : s.map (storedEntry d) = (s.map (fun p => (⟨p.1, (d.times [p.1]).1, (d.times [p.1]).2, p.2⟩ : SrcFile))).map SrcFile.entry := by
    rw [List.map_map]; rfl
  obtain ⟨f, h1, h2⟩ := C01_build_succeeds d.deflate (s.map (fun p => (⟨p.1, (d.times [p.1]).1, (d.times [p.1]).2, p.2⟩ : SrcFile)))
    (by simpa using hs0) (by intro q hq; obtain ⟨p, _, rfl⟩ := List.mem_map.mp hq; exact ht _)
    (by rw [List.map_map]; exact hsz s hs)
  refine ⟨f, ?_, h2⟩
  unfold wrap
  rw [hs]
  simp only
  rw [he]
  exact h1

end V8.Stage
