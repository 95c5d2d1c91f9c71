import Verif.Props.Stage
/-
C65: the hypotheses are met: a zlib (a part of DEFLATE) that satisfies ZlibOk, and a folder with a file and a module folder.
-/
namespace V8.Stage
open V8.Brace V8.Enc V8.Zlib

/-! ### a compressor with which ZlibOk holds: stored blocks of one byte -/

/-- the bytes in blocks of one byte -/
def tiny : Bytes → Bytes
  | [] => block true []
  | [b] => block true [b]
  | b :: c :: s => block false [b] ++ tiny (c :: s)

/-- the compressor that collects its input -/
def tinyDeflater : Deflater where
  σ := Bytes
  init := []
  compress := fun s x => (s ++ x, [])
  flush := tiny

theorem block_short (f : Bool) (b : UInt8) (j : Nat) (hj : j < 6) : ∃ s, srun .head ((block f [b]).take j) = some (s, []) := by
  match j, hj with
  | 0, _ => exact ⟨_, rfl⟩
  | 1, _ => cases f <;> exact ⟨_, rfl⟩
  | 2, _ => cases f <;> exact ⟨_, rfl⟩
  | 3, _ => cases f <;> exact ⟨_, rfl⟩
  | 4, _ => cases f <;> exact ⟨_, rfl⟩
  | 5, _ =>
    refine ⟨.data f 0, ?_⟩
    have := run_header f 1 [] (by decide)
    rw [List.append_nil] at this
    exact this

theorem srun_append (s s' : Stored) (a b o : Bytes) (h : srun s a = some (s', o)) :
    srun s (a ++ b) = (srun s' b).map (fun q => (q.1, o ++ q.2)) := by
  have := run_append storedInflater a b s
  have h' : storedInflater.run s a = some (s', o) := h
  rw [h'] at this
  simp only at this
  refine this.trans ?_
  show _ = Option.map _ (storedInflater.run s' b)
  cases storedInflater.run s' b <;> rfl

theorem block_one_length (f : Bool) (b : UInt8) : (block f [b]).length = 6 := rfl

/-- of `j` bytes of the stream, each sixth gives an output -/
theorem tiny_run : ∀ (b : Bytes) (j : Nat), b ≠ [] → ∃ s, srun .head ((tiny b).take j) = some (s, b.take (j / 6))
  | [], _, h => absurd rfl h
  | [b], j, _ => by
    by_cases hj : j < 6
    · obtain ⟨s, hs⟩ := block_short true b j hj
      refine ⟨s, ?_⟩
      rw [Nat.div_eq_of_lt hj, List.take_zero]
      exact hs
    · refine ⟨Stored.next true, ?_⟩
      have h6 : (block true [b]).length ≤ j := by rw [block_one_length]; omega
      rw [tiny, List.take_of_length_le h6, run_block true [b] (by rw [List.length_cons, List.length_nil]; decide), List.take_of_length_le]
      rw [List.length_cons, List.length_nil]
      omega
  | b :: c :: s, j, _ => by
    rw [tiny]
    by_cases hj : j < 6
    · obtain ⟨t, ht⟩ := block_short false b j hj
      refine ⟨t, ?_⟩
      rw [List.take_append_of_le_length (by rw [block_one_length]; omega), Nat.div_eq_of_lt hj, List.take_zero]
      exact ht
    · obtain ⟨t, ht⟩ := tiny_run (c :: s) (j - 6) (by simp)
      refine ⟨t, ?_⟩
      have hd : j / 6 = (j - 6) / 6 + 1 := by omega
      rw [List.take_append, List.take_of_length_le (by rw [block_one_length]; omega), block_one_length]
      rw [srun_append _ _ _ _ _ (run_block false [b] (by rw [List.length_cons, List.length_nil]; decide)), show Stored.next false = Stored.head from rfl,
        ht, hd, List.take_succ_cons]
      rfl

theorem tiny_length : ∀ (b : Bytes), b ≠ [] → (tiny b).length = 6 * b.length
  | [], h => absurd rfl h
  | [b], _ => rfl
  | b :: c :: s, _ => by
    rw [tiny, List.length_append, tiny_length (c :: s) (by simp), block_one_length, List.length_cons (a := b)]
    omega

theorem tiny_once (b : Bytes) : oneShot storedInflater (tiny b) = some b := by
  by_cases hb : b = []
  · subst hb; rfl
  · obtain ⟨s, hs⟩ := tiny_run b (6 * b.length) hb
    rw [List.take_of_length_le (by rw [tiny_length b hb]; omega), List.take_of_length_le (by omega)] at hs
    show (srun .head (tiny b)).map (·.2) = some b
    rw [hs]
    rfl

/-- ZlibOk is satisfiable, by a part of DEFLATE -/
theorem tiny_ok : ZlibOk storedInflater tinyDeflater where
  seamless := fun s a b => ⟨List.append_assoc s a b, rfl⟩
  inverse := tiny_once
  empty := rfl
  loud := by
    intro b k h
    have e : deflateOnce tinyDeflater b = tiny b := rfl
    rw [e] at h ⊢
    by_cases hb : b = []
    · subst hb
      obtain ⟨hk, _⟩ := h
      have : (tiny []).length = 5 := rfl
      rw [this] at hk
      have : k = 0 := by omega
      subst this
      rfl
    · obtain ⟨hk, s, s', o, h1, h2⟩ := h
      obtain ⟨t1, ht1⟩ := tiny_run b (k * 8192) hb
      obtain ⟨t2, ht2⟩ := tiny_run b (k * 8192 + 8192) hb
      have h1' : srun .head ((tiny b).take (k * 8192)) = some (s, o) := h1
      rw [ht1] at h1'
      replace h1' : t1 = s ∧ b.take (k * 8192 / 6) = o := by cases h1'; exact ⟨rfl, rfl⟩
      have h2' : srun s (((tiny b).drop (k * 8192)).take 8192) = some (s', []) := h2
      rw [List.take_add, srun_append _ _ _ _ _ ht1, h1'.1, h2'] at ht2
      have e2 : s' = t2 ∧ b.take (k * 8192 / 6) = b.take ((k * 8192 + 8192) / 6) := by
        have h3 : some (s', b.take (k * 8192 / 6) ++ []) = some (t2, b.take ((k * 8192 + 8192) / 6)) := ht2
        rw [List.append_nil] at h3
        have h4 := Option.some.inj h3
        exact ⟨congrArg Prod.fst h4, congrArg Prod.snd h4⟩
      have hl := congrArg List.length e2.2
      rw [List.length_take, List.length_take] at hl
      have hlen : b.length ≤ k * 8192 / 6 := by omega
      show (srun .head ((tiny b).take (k * 8192))).map (·.2) = some b
      rw [ht1, List.take_of_length_le hlen]
      rfl
  prompt := by
    intro b s w h
    have e : deflateOnce tinyDeflater b = tiny b := rfl
    rw [e] at h
    by_cases hb : b = []
    · subst hb; exact Nat.zero_le _
    · obtain ⟨t, ht⟩ := tiny_run b 8192 hb
      have h' : srun .head ((tiny b).take 8192) = some (s, w) := h
      rw [ht] at h'
      replace h' : t = s ∧ b.take (8192 / 6) = w := by cases h'; exact ⟨rfl, rfl⟩
      rw [← h'.2, List.length_take]
      omega

/-! ### a folder -/

/-- the container of a folder of files is not much longer than the files -/
theorem dir_size (d : Disk) (ht : TimesOk d) (path : List Text) (s : Folder) (hne : s ≠ []) (hs : ∀ p ∈ s, ∃ b, p.2 = Tree.file b)
    (hsz : (s.map size).sum + 2000 < 2 ^ 31) (w : WFile) (h : buildContainer fmt32 d.deflate ⟨[], 0⟩ (s.map (entryOf d path)) true 0 = .ok w) :
    w.bytes.length ≤ (s.map size).sum + 2000 := by
  have hcost : ((s.map (srcOf d path)).map SrcFile.cost).sum = (s.map size).sum := by
    rw [List.map_map]
    congr 1
    refine List.map_congr_left (fun p hp => ?_)
    obtain ⟨b, hb⟩ := hs p hp
    show SrcFile.cost (srcOf d path p) = size p
    unfold SrcFile.cost srcOf size
    rw [hb]
  have hlen : ∀ l : List SrcFile, l.length ≤ (l.map SrcFile.cost).sum := by
    intro l
    induction l with
    | nil => simp
    | cons s fs ih => simp only [List.map_cons, List.sum_cons, List.length_cons, SrcFile.cost] at *; omega
  have h0 : fmt32.headerSize + 3 * (fmt32.indexBlock + fmt32.blockHeader) ≤ 2000 := by decide
  have h1 : fmt32.idxLimit = 2 ^ 31 := rfl
  have h2 := hlen (s.map (srcOf d path))
  obtain ⟨w', hw, hl⟩ := build_ok fmt32 fmt32_wf (by decide) d.deflate (s.map (srcOf d path)) (by simpa using hne)
    (by intro q hq; obtain ⟨p, _, rfl⟩ := List.mem_map.mp hq; exact ht _) ((s.map size).sum + 2000)
    (by rw [hcost]; omega) (by omega) (by omega)
  rw [← entries_src d path s hs, h] at hw
  cases hw
  exact hl

theorem tiny_file (b : Bytes) : (compressFile tinyDeflater b).length ≤ 6 * b.length + 5 := by
  by_cases hb : b = []
  · subst hb
    rw [C09_compress_empty]
    exact Nat.le_refl _
  · rw [C09_compress tinyDeflater tiny_ok.seamless b hb]
    show (tiny b).length ≤ _
    rw [tiny_length b hb]
    omega

/-- a system -/
def xDisk : Disk := ⟨fun _ => (5, 7), tinyDeflater, fun _ => "2jmj7l5rSw0yVb/vlWAYkK/YBwk=".toList, true, fun b => b⟩

/-- the files of a module folder -/
def xModule : Folder := [("info".toList, .file [0x7B, 0x7D]), ("text".toList, .file [0x41])]

/-- a folder: two files, one of them empty, and a module folder -/
def xFolder : Folder := [("root".toList, .file [0x7B, 0x32, 0x7D]), ("void".toList, .file []), ("ab.0".toList, .dir xModule)]

theorem xTimes : TimesOk xDisk := fun _ => ⟨show 5 < 2 ^ 64 by decide, show 7 < 2 ^ 64 by decide⟩

theorem xGood {n : Text} (h : n.all (fun c => decide (c ≠ Char.ofNat 0) && decide (c.toNat < 65279)) = true) : GoodName n := by
  rw [List.all_eq_true] at h
  refine ⟨fun c hc => ?_, fun c hc => ?_⟩
  · have := h c (List.mem_of_head? hc)
    rw [Bool.and_eq_true, decide_eq_true_eq, decide_eq_true_eq] at this
    omega
  · have := h c hc
    rw [Bool.and_eq_true] at this
    exact of_decide_eq_true this.1

theorem xModuleOk : xModule ≠ [] ∧ (xModule.map (·.1)).Nodup ∧ (∀ p ∈ xModule, GoodName p.1 ∧ ∃ b, p.2 = .file b ∧ b.take 4 ≠ mark) ∧
    (xModule.map size).sum + 2000 < 2 ^ 31 := by
  refine ⟨by simp [xModule], by decide, ?_, by decide⟩
  intro p hp
  simp only [xModule, List.mem_cons, List.not_mem_nil, or_false] at hp
  rcases hp with rfl | rfl
  · exact ⟨xGood (by decide), _, rfl, by decide⟩
  · exact ⟨xGood (by decide), _, rfl, by decide⟩

theorem xFolderOk : FolderOk xFolder where
  names := by decide
  good := by
    intro p hp
    simp only [xFolder, List.mem_cons, List.not_mem_nil, or_false] at hp
    rcases hp with rfl | rfl | rfl <;> exact xGood (by decide)
  file := by
    intro n b h
    simp only [xFolder, List.mem_cons, List.not_mem_nil, or_false, Prod.mk.injEq, Tree.file.injEq, reduceCtorEq, and_false] at h
    rcases h with ⟨_, rfl⟩ | ⟨_, rfl⟩ <;> decide
  dir := by
    intro n s h
    simp only [xFolder, List.mem_cons, List.not_mem_nil, or_false, Prod.mk.injEq, Tree.dir.injEq, reduceCtorEq, and_false, false_or] at h
    rw [h.2]
    exact xModuleOk
  info := by
    intro t h
    have : V8.Misc.configinfoName ∈ xFolder.map (·.1) := List.mem_map.mpr ⟨_, h, rfl⟩
    exact absurd this (by decide)

/-- the product of the folder is built ... -/
theorem xWrap : ∃ f, wrap xDisk xFolder = .ok f ∧ f.length < 2 ^ 31 := by
  refine C65_wrap_succeeds xDisk xFolder xTimes xFolderOk (by simp [xFolder]) (fun s hs => ?_)
  obtain ⟨h1, h2, h3, h4⟩ := xModuleOk
  obtain ⟨w, _, hw, _⟩ := dir_back xDisk xTimes ["ab.0".toList] xModule h1 h2 h3 h4 (2 ^ 31) 0 (Nat.le_refl _)
  have hl := dir_size xDisk xTimes _ xModule h1 (fun p hp => let ⟨_, b, h, _⟩ := h3 p hp; ⟨b, h⟩) h4 w hw
  have hsum : (xModule.map size).sum = 1635 := by decide
  rw [hsum] at hl
  have he : stored xDisk xFolder = .ok [("root".toList, compressFile tinyDeflater [0x7B, 0x32, 0x7D]), ("void".toList, compressFile tinyDeflater []),
      ("ab.0".toList, compressFile tinyDeflater w.bytes)] := by
    unfold stored xFolder
    simp only [mapExcept, storedOf]
    rw [hw]
    simp only
    unfold signed
    have hc : ∀ a b c : Bytes, ([("root".toList, a), ("void".toList, b), ("ab.0".toList, c)] : List (Text × Bytes)).any
        (fun p => decide (p.1 = V8.Misc.configinfoName)) = false := by
      intro a b c
      simp only [List.any_cons, List.any_nil]
      have e1 : decide ("root".toList = V8.Misc.configinfoName) = false := by decide
      have e2 : decide ("void".toList = V8.Misc.configinfoName) = false := by decide
      have e3 : decide ("ab.0".toList = V8.Misc.configinfoName) = false := by decide
      rw [e1, e2, e3]
      rfl
    rw [hc]
    rfl
  rw [he] at hs
  simp only [Except.ok.injEq] at hs
  subst hs
  have t1 := tiny_file [0x7B, 0x32, 0x7D]
  have t2 := tiny_file []
  have t3 := tiny_file w.bytes
  have n1 : "root".toList.length = 4 := by decide
  have n2 : "void".toList.length = 4 := by decide
  have n3 : "ab.0".toList.length = 4 := by decide
  simp only [List.map_cons, List.map_nil, List.sum_cons, List.sum_nil]
  rw [n1, n2, n3]
  generalize (compressFile tinyDeflater [0x7B, 0x32, 0x7D]).length = a at *
  generalize (compressFile tinyDeflater []).length = b at *
  generalize (compressFile tinyDeflater w.bytes).length = c at *
  generalize w.bytes.length = e at *
  simp only [List.length_cons, List.length_nil] at t1 t2
  omega

/-- ... and taken apart it has the folder again -/
example : ∃ f out, wrap xDisk xFolder = .ok f ∧ unwrap storedInflater (2 ^ 31) 2 1 f = .ok [out] ∧
    view out "root".toList = some (.file [0x7B, 0x32, 0x7D]) ∧ view out "void".toList = some (.file []) ∧
    view out "other".toList = none := by
  obtain ⟨f, h1, h2⟩ := xWrap
  obtain ⟨out, h3, _, h4, _⟩ := C65_wrap_unwrap storedInflater xDisk xFolder f tiny_ok xTimes xFolderOk h1 h2 (2 ^ 31) 2 1 (Nat.le_refl _) (Nat.le_refl _)
  refine ⟨f, out, h1, h3, ?_, ?_, ?_⟩
  · rw [h4 _ (by decide)]; rfl
  · rw [h4 _ (by decide)]; rfl
  · rw [h4 _ (by decide)]; rfl

/-- the hypotheses of C65_configinfo -/
example : ∃ b, stamped xDisk [("root".toList, [1]), (V8.Misc.configinfoName, [])] (utf8 (osWrite true ("{{0},\n".toList ++ (V8.Misc.placeholder ++ "}".toList)))) = some b ∧
    b = utf8 (osWrite true ("{{0},\n{1,\"root\",2jmj7l5rSw0yVb/vlWAYkK/YBwk=}}".toList)) := by
  refine ⟨_, C65_configinfo xDisk [("root".toList, [1]), (V8.Misc.configinfoName, [])] "{{0},\n".toList "}".toList ("root".toList, [1]) (by simp) (by decide) (by decide) (by decide)
    (by decide) (by decide) (by decide), ?_⟩
  have : "{{0},\n".toList ++ encRoot [V8.Misc.versionsList xDisk.digest [("root".toList, [1]), (V8.Misc.configinfoName, [])]] ++ "}".toList =
      "{{0},\n{1,\"root\",2jmj7l5rSw0yVb/vlWAYkK/YBwk=}}".toList := by decide +kernel
  rw [this]
  rfl

/-! ### what is not kept -/

/-- **C65 fails for a file that is a container itself**: it comes back as a folder. -/
theorem C65_container_becomes_folder (I : Inflater) (d : Disk) (hz : ZlibOk I d.D) (ht : TimesOk d) (path : List Text) (s : Folder) (hne : s ≠ [])
    (hnd : (s.map (·.1)).Nodup) (hs : ∀ p ∈ s, GoodName p.1 ∧ ∃ b, p.2 = .file b ∧ b.take 4 ≠ mark) (hsz : (s.map size).sum + 2000 < 2 ^ 31)
    (fuel n : Nat) (hf : 2 ^ 31 ≤ fuel) :
    ∃ b s', storedOf d ("x".toList, .file b) = .ok ("x".toList, compressFile d.D b) ∧
      openStored I fuel n (compressFile d.D b) = .ok (.dir s') ∧ s'.Perm s := by
  obtain ⟨w, s', h1, h2, h3, h4⟩ := dir_back d ht path s hne hnd hs hsz fuel n hf
  refine ⟨w.bytes, s', rfl, ?_, h4⟩
  unfold openStored
  rw [decompress_compress hz]
  simp only
  rw [looks_iff hz, h2]
  exact h3

/-- **C65 fails for a file that only begins like a container**: the product is built but cannot be taken apart. -/
theorem C65_mark_fails (I : Inflater) (d : Disk) (hz : ZlibOk I d.D) (fuel n : Nat) :
    ∃ e, openStored I fuel n (compressFile d.D mark) = .error e := by
  unfold openStored
  rw [decompress_compress hz]
  simp only
  rw [looks_iff hz]
  refine ⟨_, rfl⟩

/-- **C65, an empty module folder** cannot be built. -/
theorem C65_empty_module (d : Disk) (n : Text) : ∃ e, storedOf d (n, .dir []) = .error e := by
  unfold storedOf
  simp only
  cases hw : buildContainer fmt32 d.deflate ⟨[], 0⟩ (([] : Folder).map (entryOf d [n])) true 0 with
  | error e => exact ⟨e, rfl⟩
  | ok w => exact absurd (by rw [List.map_nil, List.mergeSort_nil]) (build_shape fmt32 fmt32_wf d.deflate _ w hw).2.1

/-- **C65, a folder in a module folder** cannot be built. -/
theorem C65_nested_folder (d : Disk) (n m : Text) (s s' : Folder) (h : (m, Tree.dir s') ∈ s) : ∃ e, storedOf d (n, .dir s) = .error e := by
  unfold storedOf
  simp only
  cases hw : buildContainer fmt32 d.deflate ⟨[], 0⟩ (s.map (entryOf d [n])) true 0 with
  | error e => exact ⟨e, rfl⟩
  | ok w =>
    have hp := (build_shape fmt32 fmt32_wf d.deflate _ w hw).1 (entryOf d [n] (m, .dir s'))
      ((List.mergeSort_perm _ _).mem_iff.mpr (List.mem_map.mpr ⟨_, h, rfl⟩))
    exact absurd hp (by simp [Entry.Plain, entryOf])

end V8.Stage
