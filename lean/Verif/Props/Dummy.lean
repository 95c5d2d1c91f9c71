import Verif.Dummy
import Verif.Props.StageEx
/-
C86: products of two containers.
-/
namespace V8.Stage
open V8.Brace V8.Enc V8.Zlib V8.Dec

theorem named_one (a : Folder) : named 0 [a] = [(['0'], a)] := by
  have h0 : showNat 0 = ['0'] := by rw [showNat]; rfl
  unfold named named
  rw [h0]

theorem named_two (a b : Folder) : named 0 [a, b] = [(['0'], a), (['1'], b)] := by
  have h0 : showNat 0 = ['0'] := by rw [showNat]; rfl
  have h1 : showNat (0 + 1) = ['1'] := by rw [showNat]; rfl
  unfold named named named
  rw [h0, h1]

theorem chosen_one (l : Folder) : chosen [l] ["0".toList] = some (l, none) := by
  unfold chosen
  rw [named_one]
  rfl

theorem chosen_01 (a b : Folder) : chosen [a, b] ["0".toList, "1".toList] = some (b, some a) := by
  unfold chosen
  rw [named_two]
  rfl

theorem chosen_10 (a b : Folder) : chosen [a, b] ["1".toList, "0".toList] = some (a, some a) := by
  unfold chosen
  rw [named_two]
  rfl

theorem disk_0 (d : Disk) : diskOf d 0 = { d with times := fun p => d.times ("0".toList :: p) } := by
  have h0 : showNat 0 = "0".toList := by rw [showNat]; rfl
  unfold diskOf
  rw [h0]

theorem disk_1 (d : Disk) : diskOf d (0 + 1) = { d with times := fun p => d.times ("1".toList :: p) } := by
  have h1 : showNat (0 + 1) = "1".toList := by rw [showNat]; rfl
  unfold diskOf
  rw [h1]

/-- **C86, one container.**  A product of one container is decoded from it whatever the order of listing, no archive is made, and a build makes one
container as in C65, from the folder `0`. -/
theorem C86_one (l : Folder) (d : Disk) : chosen [l] ["0".toList] = some (l, none) ∧ wrapAll d (folders none l) = wrap { d with times := fun p => d.times ("0".toList :: p) } l := by
  refine ⟨chosen_one l, ?_⟩
  rw [← disk_0]
  unfold wrapAll folders wrap storedAll storedAll
  cases stored (diskOf d 0) l <;> rfl

/-- **C86, what a build writes.**  The kept container is stored from the folder `0` and the new one from the folder `1`, each with the times of its files there, and they are written in this order. -/
theorem C86_places (d d0 d1 : Disk) (a b : Folder) (h0 : d0 = { d with times := fun p => d.times ("0".toList :: p) }) (h1 : d1 = { d with times := fun p => d.times ("1".toList :: p) })
    (s0 s1 : List (Text × Bytes)) (hs0 : stored d0 a = .ok s0) (hs1 : stored d1 b = .ok s1) :
    wrapAll d (folders (some a) b) = buildFile d.deflate [s0.map (fun p => ⟨p.1, .file (d.times ["0".toList, p.1]).1 (d.times ["0".toList, p.1]).2 p.2⟩),
      s1.map (fun p => ⟨p.1, .file (d.times ["1".toList, p.1]).1 (d.times ["1".toList, p.1]).2 p.2⟩)] true := by
  subst h0 h1
  unfold wrapAll folders storedAll storedAll storedAll
  simp only
  rw [disk_0, disk_1, hs0, hs1]
  rfl

/-- **C86, two containers.**  Listed as `0`, `1` the second container is decoded and the first one kept in the archive; a build puts the first one back in
front of the new one.  Listed as `1`, `0` the first one is decoded and also kept: what is decoded and kept does not depend on the second container. -/
theorem C86_two (a b : Folder) : chosen [a, b] ["0".toList, "1".toList] = some (b, some a) ∧ (∀ l, folders (some a) l = [a, l]) ∧
    chosen [a, b] ["1".toList, "0".toList] = some (a, some a) :=
  ⟨chosen_01 a b, fun _ => rfl, chosen_10 a b⟩

/-- **C86, the second container is lost.**  If the system lists `1` first, two products with the same first container and different second ones give the same
sources: no build can give both back. -/
theorem C86_listing_neg (a b b' : Folder) : chosen [a, b] ["1".toList, "0".toList] = chosen [a, b'] ["1".toList, "0".toList] :=
  (chosen_10 a b).trans (chosen_10 a b').symm

/-- every product of two containers that is built is unreadable -/
theorem two_unreadable (I : Inflater) (d : Disk) (a b : Folder) (f : Bytes) (h : wrapAll d [a, b] = .ok f) (fuel steps n : Nat) :
    unwrap I fuel (steps + 1) n f = .error .value := by
  unfold wrapAll storedAll storedAll storedAll at h
  cases ha : stored (diskOf d 0) a with
  | error e => rw [ha] at h; cases h
  | ok s =>
    rw [ha] at h
    cases hb : stored (diskOf d (0 + 1)) b with
    | error e => rw [hb] at h; cases h
    | ok s' =>
      rw [hb] at h
      unfold unwrap
      rw [C03_two_containers_unreadable _ _ _ _ h fuel steps]

/-- **C86, a product of two containers cannot be extracted again.**  Whatever is extracted from a product of two containers, in whatever order they are listed, and whatever folder is built
from the sources: if the build ends without an error, extraction fails with the file it has made. -/
theorem C86_no_round_trip_neg (I : Inflater) (fs : List Folder) (listing : List Text) (hl : listing.length = 2) (l : Folder) (dummy : Option Folder)
    (h : chosen fs listing = some (l, dummy)) (d : Disk) (l' : Folder) (f : Bytes) (hw : wrapAll d (folders dummy l') = .ok f) (fuel steps n : Nat) :
    unwrap I fuel (steps + 1) n f = .error .value := by
  unfold chosen V8.Misc.chooseContainer at h
  rw [if_pos (Or.inr hl)] at h
  cases hg : listing.getLast? with
  | none => rw [hg] at h; cases h
  | some c =>
    rw [hg] at h
    simp only [Option.map_some, hl, decide_true, if_true] at h
    cases hc : find (named 0 fs) c with
    | none => rw [hc] at h; cases h
    | some x =>
      rw [hc] at h
      cases hz : find (named 0 fs) ['0'] with
      | none => rw [hz] at h; cases h
      | some z =>
        rw [hz] at h
        simp only [Option.map_some, Option.some.injEq, Prod.mk.injEq] at h
        rw [← h.2] at hw
        exact two_unreadable I d z l' f hw fuel steps n

/-- **C86, reading.**  A product file of two containers that is read as in C03: if the files of both can be opened, listing them as `0`, `1` the second one is decoded and the first one
is kept. -/
theorem C86_read (I : Inflater) (f1 f2 : Bytes) (fm1 fm2 : Fmt) (r1 r2 : ReadResult) (fuel steps n : Nat) (hst : 3 ≤ steps)
    (h1 : detectFormat (f1 ++ f2) 0 = .ok (some fm1)) (h2 : detectFormat f2 0 = .ok (some fm2))
    (hr1 : readContainer fm1 fuel (f1 ++ f2) 0 = .ok r1) (hs1 : r1.size = f1.length) (hpos : 0 < f1.length)
    (hr2 : readContainer fm2 fuel f2 0 = .ok r2) (hs2 : (f2.length : Int) ≤ r2.size) (a b : Folder)
    (ha : openFiles I fuel n r1.files = .ok a) (hb : openFiles I fuel n r2.files = .ok b) :
    ∃ fs, unwrap I fuel steps n (f1 ++ f2) = .ok fs ∧ chosen fs ["0".toList, "1".toList] = some (b, some a) := by
  refine ⟨[a, b], ?_, chosen_01 a b⟩
  unfold unwrap
  rw [C03_extract_two_partial f1 f2 fm1 fm2 r1 r2 fuel steps hst h1 h2 hr1 hs1 hpos hr2 hs2]
  simp only [mapExcept, ha, hb]

/-! ### the hypotheses are met -/

theorem second_ok (deflate : Bytes → Bytes) (w : WFile) (hw : w.bytes.length < 2 ^ 31) (s : SrcFile) (ht : s.ctime < 2 ^ 64 ∧ s.mtime < 2 ^ 64) (hn : s.name.length < 2 ^ 20) :
    ∃ w2, buildContainer fmt64 deflate ⟨w.bytes, w.bytes.length⟩ [s.entry] true w.bytes.length = .ok w2 := by
  unfold buildContainer
  rw [List.mergeSort_singleton]
  simp only [List.length_singleton, Bool.not_true]
  have : ∃ w3, writeHeader fmt64 ⟨w.bytes, w.bytes.length⟩ w.bytes.length 1 = .ok w3 := by
    unfold writeHeader; rw [if_pos (by decide)]; exact ⟨_, rfl⟩
  obtain ⟨w3, h3⟩ := this
  have e3 := writeHeader_end _ _ _ _ _ h3
  rw [h3]
  simp only
  obtain ⟨⟨w4, toc⟩, h4⟩ := addAll_plain fmt64 deflate [s.entry] w3 [] (by rw [e3])
    (by
      intro e he
      rw [List.mem_singleton] at he
      subst he
      exact ht)
  rw [h4]
  simp only
  obtain ⟨_, e4, et⟩ := addAll_ok fmt64 deflate _ w3 w4 [] toc (by rw [e3]) h4
  rw [et, List.nil_append]
  have hw3 : w3.bytes.length = w.bytes.length + (20 + (65536 + 55)) := by
    rw [e3]
    simp only [List.length_append, headerBytes_length, List.length_replicate]
    have e1 : fmt64.headerSize = 20 := by decide
    have e2 : fmt64.indexBlock = 65536 := by decide
    have e3 : fmt64.blockHeader = 55 := by decide
    rw [e1, e2, e3]
  obtain ⟨w5, h5, _⟩ := writeToc_ok fmt64 fmt64_wf w4 (tocOf fmt64 w3.bytes.length [s.entry])
    (by simp [tocOf])
    (by
      intro p hp
      simp only [tocOf, List.mem_singleton] at hp
      have hlA : (attrBlock fmt64 s.entry).length ≤ 55 + (24 + 4 * s.name.length) := by
        have h1 : (attrBlock fmt64 s.entry).length = fmt64.blockHeader + max 0 (Entry.attr s.entry).length := blockBytes_length _ _ _ _ _
        have h2 := attr_length_le s.entry
        have h3 : s.entry.name.length = s.name.length := rfl
        have h4 : fmt64.blockHeader = 55 := rfl
        omega
      have : fmt64.idxLimit = 2^64 := rfl
      rw [this]
      subst hp
      simp only
      omega)
    (by
      rw [e4]
      simp only [List.length_append, hw3]
      have : fmt64.headerSize + fmt64.indexBlock + fmt64.blockHeader = 20 + (65536 + 55) := by decide
      omega)
  exact ⟨w5, h5⟩

/-- **C86, such builds end without an error.**  A product of two containers with a file each is decoded, and a build with a changed second container succeeds (the first file below 1 MiB when compressed). -/
theorem C86_build_ends (d : Disk) (ht : TimesOk d) (x y z : Bytes) (hx : (compressFile d.D x).length < 2 ^ 20) :
    chosen [[("root".toList, .file x)], [("conf".toList, .file y)]] ["0".toList, "1".toList] = some ([("conf".toList, .file y)], some [("root".toList, .file x)]) ∧
    ∃ f, wrapAll d (folders (some [("root".toList, .file x)]) [("conf".toList, .file z)]) = .ok f := by
  refine ⟨chosen_01 _ _, ?_⟩
  have hs : ∀ k (n : Text) b, n ≠ V8.Misc.configinfoName → stored (diskOf d k) [(n, .file b)] = .ok [(n, compressFile d.D b)] := by
    intro k n b hn
    have : mapExcept (storedOf (diskOf d k)) [(n, Tree.file b)] = .ok [(n, compressFile d.D b)] := rfl
    unfold stored signed
    rw [this]
    simp [hn]
  obtain ⟨w, hw, hl⟩ := build_ok fmt32 fmt32_wf (by decide) d.deflate [⟨"root".toList, ((diskOf d 0).times ["root".toList]).1, ((diskOf d 0).times ["root".toList]).2, compressFile d.D x⟩] (by simp)
    (by
      intro s hs
      rw [List.mem_singleton] at hs
      subst hs
      exact ht _)
    (2^30)
    (by
      simp only [List.map_cons, List.map_nil, List.sum_cons, List.sum_nil, SrcFile.cost]
      have h1 : fmt32.headerSize + 3 * (fmt32.indexBlock + fmt32.blockHeader) = 1645 := by decide
      have h2 : "root".toList.length = 4 := by decide
      rw [h1, h2]
      omega)
    (by decide) (by rw [List.length_singleton]; decide)
  obtain ⟨w2, h2⟩ := second_ok d.deflate w (by omega) ⟨"conf".toList, ((diskOf d (0 + 1)).times ["conf".toList]).1, ((diskOf d (0 + 1)).times ["conf".toList]).2, compressFile d.D z⟩ (ht _)
    (show "conf".toList.length < 2 ^ 20 by decide)
  refine ⟨w2.bytes, ?_⟩
  unfold wrapAll folders storedAll storedAll storedAll
  simp only
  rw [hs _ _ _ (by decide), hs _ _ _ (by decide)]
  exact buildFile_two _ _ _ _ _ _ hw h2

/-- the hypotheses of C86_build_ends and C86_no_round_trip_neg are met: the built file exists, and it cannot be extracted -/
example : ∃ f, wrapAll xDisk (folders (some [("root".toList, .file [1])]) [("conf".toList, .file [3])]) = .ok f ∧
    ∀ fuel steps n, unwrap storedInflater fuel (steps + 1) n f = .error .value := by
  obtain ⟨_, f, hf⟩ := C86_build_ends xDisk xTimes [1] [9] [3] (by
    have h := tiny_file [1]
    rw [List.length_singleton] at h
    show (compressFile tinyDeflater [1]).length < 2 ^ 20
    omega)
  exact ⟨f, hf, C86_no_round_trip_neg storedInflater _ _ rfl _ _ (chosen_01 [("root".toList, .file [1])] [("conf".toList, .file [9])]) xDisk _ f hf⟩

end V8.Stage
