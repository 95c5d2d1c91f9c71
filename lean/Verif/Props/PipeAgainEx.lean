import Verif.Props.PipeAgain
import Verif.Props.PipeEx
/-
C80: the product of the examples meets what is asked.
-/
namespace V8.Pipe
open V8.Str V8.Brace V8.Enc V8.JsonText V8.Header
open V8.Object hiding Cls
open V8.Misc (Cls)
open V8.Tree hiding Dir
open V8.Store hiding Kind nodeOf Node
open V8.Code (Dir)
open V8.FormJson
open V8.Nested (Obj Entry)
open V8.Root V8.Stage V8.Whole
open V8.Zlib (Inflater storedInflater)

theorem name_fit {n : Text} (h : '"' ∉ n ∧ '\r' ∉ n ∧ n.length ≤ 62) : NameFit n := ⟨h.1, h.2.1, h.2.2⟩

theorem xAgain (rnd : Nat → Text) (hr : ∀ i, TokenFit (rnd i)) (L : Folder) (hL : view L = xF) : AgainOk classOf (pE rnd) .config xDisk L ['h'] ['p'] pRoot pDH := by
  refine ⟨fun m hm => ?_, fun p hp => ?_, hr, fun b => ?_, fun h => (by cases h), fun h => (by cases h)⟩
  · rw [hL] at hm
    have : m ∈ ownNames .config ['p'] ['h'] ++ [['a'], dot ['a'] "0".toList, ['b'], dot ['b'] "0".toList, dot ['c'] "2".toList] := by
      rcases hm with h | h
      · exact List.mem_append_left _ h
      · exact List.mem_append_right _ (pNested rnd m h)
    have key : ∀ m ∈ ownNames .config ['p'] ['h'] ++ [['a'], dot ['a'] "0".toList, ['b'], dot ['b'] "0".toList, dot ['c'] "2".toList],
        m ≠ "versions".toList ∧ m ≠ "configinfo".toList := by decide +kernel
    exact ⟨(key m this).1, (key m this).2, fun h => (by cases h)⟩
  · have h1 : view L p.1 ≠ none := (view_iff _).mpr (List.mem_map.mpr ⟨p, hp, rfl⟩)
    rw [hL, ← wView, view_iff] at h1
    unfold wL at h1
    rw [List.map_map] at h1
    have h1 : p.1 ∈ wFiles.map (·.1) := h1
    rw [wNames] at h1
    have key : ∀ m ∈ [['a'], ['b'], dot ['c'] "2".toList, dot ['a'] "77".toList, "root".toList, "version".toList, "versions".toList, ['h'], dot ['p'] "6".toList],
        '"' ∉ m ∧ '\r' ∉ m ∧ m.length ≤ 62 := by decide +kernel
    exact name_fit (key _ h1)
  · show ("2jmj7l5rSw0yVb/vlWAYkK/YBwk=".toList).length = 28 ∧ TokenFit "2jmj7l5rSw0yVb/vlWAYkK/YBwk=".toList
    unfold TokenFit
    decide +kernel

/-- a product file is extracted, laid out, built and extracted again: the sources are the same but for the table `versions` -/
example (rnd : Nat → Text) (hr : ∀ i, TokenFit (rnd i)) (ord : Text → List Nested.Entry → List Nested.Entry) (shuf : List Text → List Text) (hord : ∀ id l, (ord id l).Perm l)
    (hshuf : ∀ l, (shuf l).Perm l) (w : V8.Org.World JT) : ∃ old L dir src w' packed D dir' files, unwrap storedInflater (2 ^ 31) 2 1 old = .ok [L] ∧
      extractProduct (pE rnd) (handlers classOf xG xX xY "803".toList) .config "803".toList (view L) (0 + 1 + 1 + 1) = some (pInfo, dir) ∧ Found dir src ∧
      V8.Org.Unpacked namesOf (xSys false) w src w' ∧
      V8.Org.pack namesOf (xSys false) w' 5 (src.map (fun i => (i.1, i.2.1))) = some packed ∧ Saved true packed D ∧ Shows D [] dir' ∧
      buildProduct (pE rnd) (fun v p => handlers classOf xG xX { xY with prod := p } v) ord shuf "f".toList dir' = some (.config, files) ∧ (∃ l, OnDisk l files) ∧
      (files.length < 2 ^ 64 → ∀ l, OnDisk l files → ∀ new, wrap xDisk l = .ok new → new.length < 2 ^ 31 → ∃ out, unwrap storedInflater (2 ^ 31) 2 1 new = .ok [out] ∧
        ∃ dir2, extractProduct (pE rnd) (handlers classOf xG xX xY "803".toList) .config "803".toList (view out) (0 + 1 + 1 + 1) = some (pInfo, dir2) ∧
          SameSources .config xX.win dir dir2) := by
  obtain ⟨old, L, h1, h2, h3⟩ := wOld
  obtain ⟨dir, src, _, hx, hsrc, hin, hno, hready⟩ := xReady rnd
  obtain ⟨w', hun, hlist⟩ := V8.Org.C66_runs namesOf (xSys false) w src xM (fun _ _ => ⟨[], fun _ => none, []⟩) (hready false w _) (fun i hi hc => by
    rw [hno i hi] at hc
    cases hc)
  rw [← h3] at hx
  obtain ⟨packed, g1, ⟨D, hD⟩, g2⟩ := C80_extract_build_extract metaTypes classOf xG (pE rnd) .config "803".toList ord shuf xNm _ pInfo dir "f".toList ['h'] ['p'] pRoot pDH
    C61_classes C68_names rfl rfl rfl rfl rfl C62_no_extension_type C62_same_version hord hshuf storedInflater xDisk tiny_ok xTimes old L (2 ^ 31) 2 1 h1 h2
    (by rw [h3]; exact xDirs)
    (by rw [h3]; exact pDetect rnd) hx (by rw [h3]; exact pProduct rnd _) (by rw [h3]; exact pInner rnd) (xAgain rnd hr L h3)
    (xSys false) w w' src hsrc xM (fun _ _ => ⟨[], fun _ => none, []⟩) (hready false w _) hun _ hlist 5 (fun i _ _ => by
      unfold xM
      by_cases h : i.1 = []
      · rw [if_pos h]; decide
      · rw [if_neg h]; decide)
  obtain ⟨⟨dir', hs⟩, g3⟩ := g2 D hD
  obtain ⟨files, f1, f2, f3⟩ := g3 dir' hs
  refine ⟨old, L, dir, src, w', packed, D, dir', files, h1, hx, hsrc, hun, g1, hD, hs, f1, f2, fun hlen l hl new hnew hlen' => ?_⟩
  obtain ⟨out, o1, _, dir2, o2, o3⟩ := f3 hlen l hl new hnew hlen' (2 ^ 31) 2 1 (Nat.le_refl _) (Nat.le_refl _)
  exact ⟨out, o1, dir2, o2, o3⟩

end V8.Pipe
