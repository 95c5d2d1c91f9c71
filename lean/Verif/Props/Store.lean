import Verif.Store
import Verif.Props.Object
import Verif.Props.Module
import Verif.Props.Embed
/-
C60: all the files of an object come back.

`F` is the folder of the container; an object with the identifier `u` has there the file `u` and files or folders `u.suffix`.  `extractAll` gives
the files of the sources (`folder src` is their folder), `buildAll` the files that are written into the container, in order.
-/
namespace V8.Store
open V8.Brace V8.Enc V8.JsonText V8.Header V8.Nested V8.Object V8.Embed
open V8.Module (Stored EncName extractModule buildModule Rebuilt)
open V8.Product (getAt setAt)

/-! ## places -/

theorem place_unique {α : Type} : ∀ (ps : List (Place α)) (n : Text) (v w : Option α), (ps.map (·.1)).Nodup → (n, v) ∈ ps → (n, w) ∈ ps → v = w
  | [], _, _, _, _, h, _ => by cases h
  | p :: r, n, v, w, hn, hv, hw => by
    rw [List.map_cons, List.nodup_cons] at hn
    rcases List.mem_cons.mp hv with hv | hv <;> rcases List.mem_cons.mp hw with hw | hw
    · rw [← hv] at hw; cases hw; rfl
    · exact absurd (List.mem_map.mpr ⟨(n, w), hw, by rw [← hv]⟩) hn.1
    · exact absurd (List.mem_map.mpr ⟨(n, v), hv, by rw [← hw]⟩) hn.1
    · exact place_unique r n v w hn.2 hv hw

theorem mem_written {α : Type} {ps : List (Place α)} {n : Text} {a : α} : (n, a) ∈ written ps ↔ (n, some a) ∈ ps := by
  unfold written
  rw [List.mem_filterMap]
  constructor
  · rintro ⟨⟨m, v⟩, hm, he⟩
    cases v with
    | none => cases he
    | some b => cases he; exact hm
  · intro h
    exact ⟨_, h, rfl⟩

theorem find_place {α : Type} (ps : List (Place α)) (l : List (Text × α)) (hl : ∀ q, q ∈ l ↔ q ∈ written ps) (n : Text) (v : Option α)
    (hn : (ps.map (·.1)).Nodup) (h : (n, v) ∈ ps) : (l.find? (fun p => decide (p.1 = n))).map (·.2) = v := by
  cases hf : l.find? (fun p => decide (p.1 = n)) with
  | none =>
    cases v with
    | none => rfl
    | some a =>
      have := List.find?_eq_none.mp hf (n, a) ((hl _).mpr (mem_written.mpr h))
      simp at this
  | some q =>
    obtain ⟨m, a⟩ := q
    have h1 := List.find?_some hf
    rw [decide_eq_true_eq] at h1
    have h1 : m = n := h1
    subst h1
    have h2 := mem_written.mp ((hl _).mp (List.mem_of_find?_eq_some hf))
    exact (place_unique ps m v (some a) hn h h2).symm

/-- a file is found under its name -/
theorem folder_place {α : Type} (ps : List (Place α)) (n : Text) (v : Option α) (hn : (ps.map (·.1)).Nodup) (h : (n, v) ∈ ps) :
    folder ps n = v := by
  unfold folder
  exact find_place ps _ (fun q => List.mem_reverse) n v hn h

theorem folder_none {α : Type} (ps : List (Place α)) (n : Text) (h : n ∉ ps.map (·.1)) : folder ps n = none := by
  unfold folder
  cases hf : (written ps).reverse.find? (fun p => decide (p.1 = n)) with
  | none => rfl
  | some p =>
    have h1 := List.find?_some hf
    rw [decide_eq_true_eq] at h1
    have h2 := mem_written.mp (List.mem_reverse.mp (List.mem_of_find?_eq_some hf))
    rw [h1] at h2
    exact absurd (List.mem_map.mpr ⟨_, h2, rfl⟩) h

theorem nodes_names (ps : List (Place Bytes)) : (nodes ps).map (·.1) = ps.map (·.1) := by
  unfold nodes
  rw [List.map_map]
  rfl

theorem fileIn_of {S : Text → Option Node} {n : Text} {b : Option Bytes} (h : S n = b.map Node.file) : fileIn S n = b := by
  unfold fileIn
  rw [h]
  cases b <;> rfl

theorem written_nodes (ps : List (Place Bytes)) : written (nodes ps) = (written ps).map (fun p => (p.1, Node.file p.2)) := by
  unfold written nodes
  rw [List.filterMap_map, List.map_filterMap]
  congr 1
  funext p
  obtain ⟨n, v⟩ := p
  cases v <;> rfl

theorem folder_nodes (ps : List (Place Bytes)) (n : Text) : folder (nodes ps) n = (folder ps n).map Node.file := by
  unfold folder
  rw [written_nodes, ← List.map_reverse, List.find?_map, Option.map_map, Option.map_map]
  rfl

/-- the files of a folder are read as they were written -/
theorem fileIn_folder (ps : List (Place Bytes)) : fileIn (folder (nodes ps)) = folder ps := by
  funext n
  exact fileIn_of (folder_nodes ps n)

theorem dget_place (ps : List (Place JT)) (n : Text) (v : Option JT) (hn : (ps.map (·.1)).Nodup) (h : (n, v) ∈ ps) :
    dget (written ps) n = v := find_place ps _ (fun _ => Iff.rfl) n v hn h

theorem written_keys {α : Type} (ps : List (Place α)) (hn : (ps.map (·.1)).Nodup) : (written ps).Pairwise (fun a b => a.1 ≠ b.1) := by
  unfold written
  rw [List.pairwise_filterMap]
  rw [List.Nodup, List.pairwise_map] at hn
  refine hn.imp ?_
  intro p q hpq a ha b hb
  rw [Option.map_eq_some_iff] at ha hb
  obtain ⟨_, _, rfl⟩ := ha
  obtain ⟨_, _, rfl⟩ := hb
  exact hpq

/-! ## the names of a class -/

/-- the names in the container, in the order in which a build writes them -/
def names (k : Kind) (u : Text) : List Text :=
  k.help.toList.map (dot u) ++ k.blobs.map (fun c => dot u c.1) ++ u :: k.codes.map (fun c => dot u c.2) ++ k.info.toList.map (dot u)

/-- the entries of the description that belong to the class -/
def keys (k : Kind) : List Text :=
  k.help.toList.map (fun _ => "help".toList) ++ k.codes.flatMap (fun c => [infoKey c.1, encKey c.1]) ++
    k.info.toList.map (fun _ => "info".toList)

/-- the names in the sources -/
def sources (k : Kind) : List Text :=
  k.help.toList.flatMap (fun _ => [dot k.name "html".toList, dot k.name "bin".toList]) ++ k.blobs.map (·.2) ++
    k.codes.flatMap (fun c => [bslName k.name c.1, binName k.name c.1]) ++ [idName k.name, objName k.name]

/-- the class is free of collisions: no two of its parts share a name -/
structure Good (k : Kind) : Prop where
  keys : (keys k).Nodup
  own : ∀ q ∈ Store.keys k, q ∉ ["name".toList, "name2".toList, "comment".toList, "header".toList, "obj_version".toList]
  sources : (sources k).Nodup
  suffixes : (k.help.toList ++ k.blobs.map (·.1) ++ k.codes.map (·.2) ++ k.info.toList).Nodup
  ids : IdsOk k.cls

/-! ## shapes -/

theorem helpOut_shape {k : Text} {F : Text → Option Node} {u : Text} {o : Option Text} {r : List (Place JT) × List (Place Bytes)}
    (h : helpOut k F u o = some r) : r.1.map (·.1) = o.toList.map (fun _ => "help".toList) ∧
      r.2.map (·.1) = o.toList.flatMap (fun _ => [dot k "html".toList, dot k "bin".toList]) ∧ ∀ n v, (n, some v) ∈ r.1 → v.WF := by
  cases o with
  | none =>
    simp only [helpOut, Option.some.injEq] at h
    subst h
    exact ⟨rfl, rfl, fun _ _ h => by cases h⟩
  | some sfx =>
    simp only [helpOut, Option.bind_eq_some_iff, Option.map_eq_some_iff] at h
    obtain ⟨f, _, hh, _, rfl⟩ := h
    refine ⟨rfl, rfl, ?_⟩
    intro n v hm
    have := List.mem_singleton.mp hm
    cases hf : hh.field with
    | none => rw [hf] at this; cases this
    | some w => rw [hf] at this; cases this; exact jsonOf_wf w

theorem codesOut_shape {win cd : Bool} {k : Text} {F : Text → Option Node} {u : Text} : ∀ {cs : List (Text × Text)}
    {r : List (Place JT) × List (Place Bytes)}, codesOut win cd k F u cs = some r →
      r.1.map (·.1) = cs.flatMap (fun c => [infoKey c.1, encKey c.1]) ∧
      r.2.map (·.1) = cs.flatMap (fun c => [bslName k c.1, binName k c.1]) ∧ ∀ n v, (n, some v) ∈ r.1 → v.WF
  | [], r, h => by
    simp only [codesOut, Option.some.injEq] at h
    subst h
    exact ⟨rfl, rfl, fun _ _ h => by cases h⟩
  | c :: cs, r, h => by
    simp only [codesOut, Option.bind_eq_some_iff, Option.map_eq_some_iff] at h
    obtain ⟨a, ha, b, hb, rfl⟩ := h
    obtain ⟨h1, h2, h3⟩ := codesOut_shape hb
    simp only [codeOut, Option.map_eq_some_iff] at ha
    obtain ⟨st, _, rfl⟩ := ha
    refine ⟨?_, ?_, ?_⟩
    · simp only [List.map_append, List.map_cons, List.map_nil, h1, List.flatMap_cons]
    · simp only [List.map_append, List.map_cons, List.map_nil, h2, List.flatMap_cons]
    · intro n v hm
      rcases List.mem_append.mp hm with hm | hm
      · simp only [List.mem_cons, List.not_mem_nil, or_false, Prod.mk.injEq] at hm
        cases hi : (extractModule win cd st).info with
        | none => rw [hi] at hm; rcases hm with ⟨_, h⟩ | ⟨_, h⟩ <;> cases h
        | some i =>
          rw [hi] at hm
          rcases hm with ⟨_, h⟩ | ⟨_, h⟩
          · cases i with
            | none => cases h; exact str_wf _
            | some d => cases h; exact jsonOf_wf _
          · cases h; exact str_wf _
      · exact h3 n v hm

theorem blobsOut_shape {F : Text → Option Node} {u : Text} : ∀ {bs : List (Text × Text)} {r : List (Place Bytes)},
    blobsOut F u bs = some r → r.map (·.1) = bs.map (·.2)
  | [], r, h => by simp only [blobsOut, Option.some.injEq] at h; subst h; rfl
  | c :: cs, r, h => by
    simp only [blobsOut, Option.bind_eq_some_iff, Option.map_eq_some_iff] at h
    obtain ⟨f, _, b, hb, rfl⟩ := h
    rw [List.map_cons, List.map_cons, blobsOut_shape hb]

theorem null_wf : JT.null.WF := by
  rw [JT.WF]
  · trivial
  all_goals simp

theorem infoOut_shape {F : Text → Option Node} {u : Text} {o : Option Text} {r : List (Place JT)}
    (h : infoOut F u o = some r) : r.map (·.1) = o.toList.map (fun _ => "info".toList) ∧ ∀ n v, (n, some v) ∈ r → v.WF := by
  cases o with
  | none =>
    simp only [infoOut, Option.some.injEq] at h
    subst h
    exact ⟨rfl, fun _ _ h => by cases h⟩
  | some sfx =>
    simp only [infoOut, Option.bind_eq_some_iff] at h
    obtain ⟨f, _, h⟩ := h
    cases f with
    | none =>
      cases h
      refine ⟨rfl, ?_⟩
      intro n v hm
      cases List.mem_singleton.mp hm
      exact null_wf
    | some b =>
      simp only [Option.map_eq_some_iff] at h
      obtain ⟨v, _, rfl⟩ := h
      refine ⟨rfl, ?_⟩
      intro n w hm
      cases List.mem_singleton.mp hm
      exact jsonOf_wf v

/-! ## what comes back -/

/-- a module that comes back: missing, a file, or a folder with `info` and `text`, whose text is not changed by the conversions (C49) -/
def CodeOk (win cd : Bool) (n : Option Node) : Prop :=
  n = none ∨ (∃ b, n = some (.file b) ∧ Rebuilt win cd b b) ∨
    ∃ i b, n = some (.dir (modDir (braceFile win i) b)) ∧ i ≠ [] ∧ WFFile i ∧ Rebuilt win cd b b

/-- a help page that comes back (C52): missing, a large file, or a brace file with its data in the usual base64 -/
def PageOk (win : Bool) (n : Option Node) : Prop :=
  n = none ∨ (∃ b, n = some (.file b) ∧ 1000000 < b.length) ∨
    ∃ d, n = some (.file (braceFile win d)) ∧ (braceFile win d).length ≤ 1000000 ∧ d ≠ [] ∧ WFFile d ∧ CanonicalAt [0, 3, 0] (rootVal d)

/-- a brace file, or nothing -/
def InfoOk (win : Bool) (n : Option Node) : Prop := n = none ∨ ∃ d, n = some (.file (braceFile win d)) ∧ d ≠ [] ∧ WFFile d

theorem tree_file (win : Bool) (d : List (List Val)) (hne : d ≠ []) (hd : WFFile d) : tree (braceFile win d) = some (rootVal d) := by
  unfold tree
  rw [C59_brace_file_round_trip win d hne hd]
  rfl

theorem ser_root (win : Bool) (d : List (List Val)) : ser win (rootVal d) = braceFile win d := by
  unfold ser
  rw [rootOf_rootVal]
  rfl

theorem truthy_root (d : List (List Val)) (hne : d ≠ []) : truthy (rootVal d) = true := by
  cases d with
  | nil => exact absurd rfl hne
  | cons a r => rfl

theorem helpIn_of (win : Bool) (k : Text) (F : Text → Option Node) (u : Text) (o : Option Text) (r : List (Place JT) × List (Place Bytes))
    (S : Text → Option Bytes) (j : JT) (h : helpOut k F u o = some r) (hj : ∀ q ∈ r.1, entry j q.1 = q.2) (hS : ∀ q ∈ r.2, S q.1 = q.2)
    (hok : ∀ sfx, o = some sfx → PageOk win (F (dot u sfx))) :
    helpIn win k S j u o = some (o.toList.map (fun s => (dot u s, F (dot u s)))) := by
  cases o with
  | none => rfl
  | some sfx =>
    simp only [helpOut, Option.bind_eq_some_iff, Option.map_eq_some_iff] at h
    obtain ⟨f, hf, hh, ho, rfl⟩ := h
    have h1 : entry j "help".toList = hh.field.map jsonOf := hj _ List.mem_cons_self
    have h2 : S (dot k "html".toList) = hh.html := hS _ List.mem_cons_self
    have h3 : S (dot k "bin".toList) = hh.bin := hS _ (List.mem_cons_of_mem _ List.mem_cons_self)
    have h4 : helpField j = some hh.field := by
      unfold helpField
      rw [h1]
      cases hh.field with
      | none => rfl
      | some v => simp only [Option.map_some, valOf_jsonOf]
    have key : htmlIn (ser win) hh = some f ∧ F (dot u sfx) = f.map Node.file := by
      rcases hok sfx rfl with hn | ⟨b, hn, hl⟩ | ⟨d, hn, hl, hne, hd, hc⟩
      · rw [fileAt, hn] at hf
        cases hf
        obtain ⟨s, g1, g2⟩ := C52_html_absent tree (ser win)
        rw [g1] at ho
        cases ho
        exact ⟨g2, hn⟩
      · rw [fileAt, hn] at hf
        cases hf
        obtain ⟨s, g1, g2⟩ := C52_html_large tree (ser win) b hl
        rw [g1] at ho
        cases ho
        exact ⟨g2, hn⟩
      · rw [fileAt, hn] at hf
        cases hf
        have := C52_html_partial tree (ser win) (braceFile win d) (rootVal d) hh ho hl (tree_file win d hne hd) (truthy_root d hne) hc
        rw [ser_root] at this
        exact ⟨this, hn⟩
    simp only [helpIn, h2, h3, h4, Option.bind_some, key.1, Option.map_some, Option.toList_some, List.map_cons, List.map_nil, key.2]

theorem blobsIn_of (F : Text → Option Node) (u : Text) : ∀ (bs : List (Text × Text)) (r : List (Place Bytes)) (S : Text → Option Bytes),
    blobsOut F u bs = some r → (∀ q ∈ r, S q.1 = q.2) → blobsIn S u bs = bs.map (fun c => (dot u c.1, F (dot u c.1)))
  | [], _, _, _, _ => rfl
  | c :: cs, r, S, h, hS => by
    simp only [blobsOut, Option.bind_eq_some_iff, Option.map_eq_some_iff] at h
    obtain ⟨f, hf, b, hb, rfl⟩ := h
    have h1 : S c.2 = f := hS _ List.mem_cons_self
    have h2 := blobsIn_of F u cs b S hb (fun q hq => hS q (List.mem_cons_of_mem _ hq))
    unfold blobsIn at h2 ⊢
    rw [List.map_cons, List.map_cons, h2, h1]
    congr 2
    unfold fileAt at hf
    cases hF : F (dot u c.1) with
    | none => rw [hF] at hf; cases hf; rfl
    | some n =>
      rw [hF] at hf
      cases n with
      | file b => cases hf; rfl
      | dir g => cases hf

theorem falsy_root (d : List (List Val)) (hne : d ≠ []) : falsy (jsonOf (rootVal d)) = false := by
  cases d with
  | nil => exact absurd rfl hne
  | cons a r =>
    unfold rootVal
    rw [List.map_cons, jsonOf, jsonsOf]
    rfl

theorem infoIn_of (win : Bool) (F : Text → Option Node) (u : Text) (o : Option Text) (r : List (Place JT)) (j : JT)
    (h : infoOut F u o = some r) (hj : ∀ q ∈ r, entry j q.1 = q.2) (hok : ∀ sfx, o = some sfx → InfoOk win (F (dot u sfx))) :
    infoIn win j u o = some (o.toList.map (fun s => (dot u s, F (dot u s)))) := by
  cases o with
  | none => rfl
  | some sfx =>
    simp only [infoOut, Option.bind_eq_some_iff] at h
    obtain ⟨f, hf, h⟩ := h
    rcases hok sfx rfl with hn | ⟨d, hn, hne, hd⟩
    · rw [fileAt, hn] at hf
      cases hf
      cases h
      have h1 : entry j "info".toList = some .null := hj _ List.mem_cons_self
      simp only [infoIn, h1, Option.bind_some, falsy, if_true, Option.toList_some, List.map_cons, List.map_nil, hn]
    · rw [fileAt, hn] at hf
      cases hf
      simp only [tree_file win d hne hd, Option.map_some, Option.some.injEq] at h
      subst h
      have h1 : entry j "info".toList = some (jsonOf (rootVal d)) := hj _ List.mem_cons_self
      simp only [infoIn, h1, Option.bind_some, falsy_root d hne, Bool.false_eq_true, if_false, valOf_jsonOf, rootOf_rootVal,
        Option.map_some, Option.toList_some, List.map_cons, List.map_nil, hn]

theorem encOf_name (e : EncName) : [EncName.utf8, .utf8sig, .utf16, .utf32, .cp1251, .bin].find? (fun x => decide (encName x = encName e)) = some e := by
  cases e <;> decide +kernel

theorem jsonOf_rootVal (d : List (List Val)) : jsonOf (rootVal d) = .arr (jsonsOf (d.map Val.list)) := by
  unfold rootVal
  rw [jsonOf]

theorem codeInfo_tree (j : JT) (n : Text) (d : List (List Val)) (hne : d ≠ []) (h : entry j (infoKey n) = some (jsonOf (rootVal d))) :
    codeInfo j n = some (some (some d)) := by
  have h1 := falsy_root d hne
  have h2 : (valOf (jsonOf (rootVal d))).bind rootOf = some d := by rw [valOf_jsonOf, Option.bind_some, rootOf_rootVal]
  rw [jsonOf_rootVal] at h h1 h2
  unfold codeInfo
  rw [h]
  simp only [h1, Bool.false_eq_true, if_false, h2, Option.map_some]

theorem codeIn_of (w win cd : Bool) (k : Text) (F : Text → Option Node) (u : Text) (c : Text × Text) (r : List (Place JT) × List (Place Bytes))
    (S : Text → Option Bytes) (j : JT) (h : codeOut w cd k F u c = some r) (hj : ∀ q ∈ r.1, entry j q.1 = q.2) (hS : ∀ q ∈ r.2, S q.1 = q.2)
    (hok : CodeOk win cd (F (dot u c.2))) : codeIn win cd k S j u c = some (dot u c.2, F (dot u c.2)) := by
  unfold codeOut at h
  rw [Option.map_eq_some_iff] at h
  obtain ⟨st, hst, rfl⟩ := h
  have hi := hj _ List.mem_cons_self
  have he := hj _ (List.mem_cons_of_mem _ List.mem_cons_self)
  have hb := hS _ List.mem_cons_self
  have hn := hS _ (List.mem_cons_of_mem _ List.mem_cons_self)
  simp only at hi he hb hn
  unfold codeIn
  rcases hok with h0 | ⟨b, h0, hr⟩ | ⟨i, b, h0, hne, hwf, hr⟩
  · rw [h0] at hst ⊢
    cases hst
    have : codeInfo j c.1 = some none := by
      unfold codeInfo
      rw [hi]
      rfl
    rw [this]
  · rw [h0] at hst ⊢
    cases hst
    have h1 : codeInfo j c.1 = some (some none) := by
      unfold codeInfo
      rw [hi]
      simp only [extractModule, Option.map_some]
      rw [if_neg (by decide), if_pos trivial]
    have h2 : encOf j c.1 = some (extractModule w cd (.file b)).enc := by
      unfold encOf
      rw [he]
      exact encOf_name _
    rw [h1]
    simp only [h2, Option.bind_some, hb, hn]
    have : (⟨some none, (extractModule w cd (.file b)).enc, (extractModule w cd (.file b)).bsl,
        (extractModule w cd (.file b)).blob⟩ : V8.Module.Src) = extractModule w cd (.file b) := rfl
    rw [this, hr.1 w]
    rfl
  · rw [h0] at hst ⊢
    have hst2 : st = .dir i (some b) none none := by
      have e1 : modDir (braceFile win i) b "info".toList = some (braceFile win i) := by unfold modDir; rw [if_pos rfl]
      have e2 : modDir (braceFile win i) b "text".toList = some b := by unfold modDir; rw [if_neg (by decide), if_pos rfl]
      have e3 : modDir (braceFile win i) b "image".toList = none := by unfold modDir; rw [if_neg (by decide), if_neg (by decide)]
      have e4 : modDir (braceFile win i) b "bin".toList = none := by unfold modDir; rw [if_neg (by decide), if_neg (by decide)]
      rw [storedOf, e1, e2, e3, e4, Option.bind_some, C59_brace_file_round_trip win i hne hwf] at hst
      cases hst
      rfl
    subst hst2
    have h1 : codeInfo j c.1 = some (some (some i)) := codeInfo_tree j c.1 i hne hi
    have h2 : encOf j c.1 = some (extractModule w cd (.dir i (some b) none none)).enc := by
      unfold encOf
      rw [he]
      exact encOf_name _
    rw [h1]
    simp only [h2, Option.bind_some, hb, hn]
    have : (⟨some (some i), (extractModule w cd (.dir i (some b) none none)).enc, (extractModule w cd (.dir i (some b) none none)).bsl,
        (extractModule w cd (.dir i (some b) none none)).blob⟩ : V8.Module.Src) = extractModule w cd (.dir i (some b) none none) := rfl
    rw [this, hr.2 w i none none]
    rfl

theorem codesIn_of (w win cd : Bool) (k : Text) (F : Text → Option Node) (u : Text) (S : Text → Option Bytes) (j : JT) : ∀ (cs : List (Text × Text))
    (r : List (Place JT) × List (Place Bytes)), codesOut w cd k F u cs = some r → (∀ q ∈ r.1, entry j q.1 = q.2) → (∀ q ∈ r.2, S q.1 = q.2) →
    (∀ c ∈ cs, CodeOk win cd (F (dot u c.2))) → codesIn win cd k S j u cs = some (cs.map (fun c => (dot u c.2, F (dot u c.2))))
  | [], _, _, _, _, _ => rfl
  | c :: cs, r, h, hj, hS, hok => by
    simp only [codesOut, Option.bind_eq_some_iff, Option.map_eq_some_iff] at h
    obtain ⟨a, ha, b, hb, rfl⟩ := h
    have h1 := codeIn_of w win cd k F u c a S j ha (fun q hq => hj q (List.mem_append_left _ hq)) (fun q hq => hS q (List.mem_append_left _ hq))
      (hok c List.mem_cons_self)
    have h2 := codesIn_of w win cd k F u S j cs b hb (fun q hq => hj q (List.mem_append_right _ hq)) (fun q hq => hS q (List.mem_append_right _ hq))
      (fun c hc => hok c (List.mem_cons_of_mem _ hc))
    rw [codesIn, h1, Option.bind_some, h2]
    rfl

/-! ## the object -/

theorem extract_info {x : Ext} {c : Cls} {ver : Option Text} {e1 e2 : List (Text × JT)} {b : Bytes} {r1 r2 : Info × List Obj × Object.Src}
    (h1 : extract x c ver e1 b = some r1) (h2 : extract x c ver e2 b = some r2) : r1.1 = r2.1 := by
  obtain ⟨i1, o1, s1⟩ := r1
  obtain ⟨i2, o2, s2⟩ := r2
  obtain ⟨d, hd, h', _, _, a1, a2, a3, _, _, _⟩ := extract_some h1
  obtain ⟨d2, hd2, h2', _, _, b1, b2, b3, _, _, _⟩ := extract_some h2
  rw [a1] at b1
  cases b1
  rw [a2] at b2
  cases b2
  rw [a3] at b3
  cases b3
  rfl

theorem dget_append_right (a b : List (Text × JT)) (k : Text) (h : ∀ q ∈ a, q.1 ≠ k) : dget (a ++ b) k = dget b k := by
  induction a with
  | nil => rfl
  | cons x r ih =>
    obtain ⟨k', v⟩ := x
    rw [List.cons_append, dget_miss _ _ _ _ (h _ List.mem_cons_self)]
    exact ih (fun q hq => h q (List.mem_cons_of_mem _ hq))

theorem dget_append_left (a : List (Text × JT)) (k k' : Text) (v : JT) (h : k' ≠ k) : dget (a ++ [(k', v)]) k = dget a k := by
  induction a with
  | nil => exact dget_miss _ _ _ _ h
  | cons x r ih =>
    obtain ⟨k2, v2⟩ := x
    rw [List.cons_append]
    by_cases hk : k2 = k
    · subst hk; rw [dget_hit, dget_hit]
    · rw [dget_miss _ _ _ _ hk, dget_miss _ _ _ _ hk, ih]

/-- an entry of the class is found in the description -/
theorem entry_obj (ver : Option Text) (ps : List (Place JT)) (info : Info) (tr : Val) (n : Text) (v : Option JT) (hn : (ps.map (·.1)).Nodup)
    (h : (n, v) ∈ ps) (hown : n ∉ ["name".toList, "name2".toList, "comment".toList, "header".toList, "obj_version".toList]) :
    entry (objJson ver (written ps) info tr) n = v := by
  have h' : ∀ m ∈ ["name".toList, "name2".toList, "comment".toList, "header".toList, "obj_version".toList], m ≠ n := by
    intro m hm he
    subst he
    exact hown hm
  unfold objJson entry
  simp only
  rw [List.append_assoc, dget_append_right, dget_append_left, dget_place ps n v hn h]
  · exact h' _ (by simp only [List.mem_cons, true_or, or_true])
  · intro q hq
    simp only [List.mem_cons, List.not_mem_nil, or_false] at hq
    rcases hq with rfl | rfl | rfl | rfl
    · exact h' _ (by simp only [List.mem_cons, true_or])
    · exact h' _ (by simp only [List.mem_cons, true_or, or_true])
    · exact h' _ (by simp only [List.mem_cons, true_or, or_true])
    · exact h' _ (by simp only [List.mem_cons, true_or, or_true])

theorem wfd_written (ps : List (Place JT)) (h : ∀ n v, (n, some v) ∈ ps → v.WF) : WFd (written ps) := by
  induction ps with
  | nil => show WFd []; rw [WFd]; trivial
  | cons p r ih =>
    obtain ⟨n, v⟩ := p
    have ih := ih (fun n v hm => h n v (List.mem_cons_of_mem _ hm))
    cases v with
    | none => exact ih
    | some v =>
      show WFd ((n, v) :: written r)
      rw [WFd]
      exact ⟨h n v List.mem_cons_self, ih⟩

theorem extra_ok (ps : List (Place JT)) (hn : (ps.map (·.1)).Nodup)
    (hown : ∀ q ∈ ps, q.1 ∉ ["name".toList, "name2".toList, "comment".toList, "header".toList, "obj_version".toList])
    (h : ∀ n v, (n, some v) ∈ ps → v.WF) : ExtraOk (written ps) := by
  refine ⟨written_keys ps hn, wfd_written ps h, ?_⟩
  intro q hq
  obtain ⟨n, v⟩ := q
  have := hown _ (mem_written.mp hq)
  simp only [List.mem_cons, List.not_mem_nil, or_false, not_or] at this
  exact this

theorem partsOut_some {win : Bool} {k : Kind} {F : Text → Option Node} {u : Text} {p : List (Place JT) × List (Place Bytes)}
    (h : partsOut win k F u = some p) : ∃ a b c i, helpOut k.name F u k.help = some a ∧ blobsOut F u k.blobs = some b ∧
      codesOut win false k.name F u k.codes = some c ∧ infoOut F u k.info = some i ∧ p = (a.1 ++ c.1 ++ i, a.2 ++ b ++ c.2) := by
  unfold partsOut at h
  simp only [Option.bind_eq_some_iff, Option.map_eq_some_iff] at h
  obtain ⟨a, ha, b, hb, c, hc, i, hi, rfl⟩ := h
  exact ⟨a, b, c, i, ha, hb, hc, hi, rfl⟩

theorem object_full (x : Ext) (y : Bld) (k : Kind) (ver : Option Text) (F : Text → Option Node) (u : Text) (d : List (List Val))
    (info : Info) (os : List Obj) (src : List (Place Bytes)) (es : List Entry) (hk : Good k)
    (hx : extractAll x k ver F u = some (info, os, src)) (hu : info.uuid = u)
    (hF : F u = some (.file (braceFile y.win d))) (hne : d ≠ []) (hd : WFFile d)
    (hv : k.cls.ids = [] ∨ v803 y.ver = v803 ver) (hst : Unstamped y.prod k.cls (headerOf k.cls d))
    (hp : y.p = x.p) (hpre : PrefixOk x.p y.parent (headerOf k.cls d))
    (hl : k.cls.includes = true → ∀ inc inc' : List Val, inc.drop 3 = slotsOf d → decodeInclude x.E x.auto inc = some (inc', os) →
      buildInclude y.E false y.auto es inc' = some inc)
    (hcode : ∀ c ∈ k.codes, CodeOk y.win false (F (dot u c.2))) (hhelp : ∀ s, k.help = some s → PageOk y.win (F (dot u s)))
    (hinfo : ∀ s, k.info = some s → InfoOk y.win (F (dot u s))) :
    buildFull y k es (folder src) = some (some ⟨u, info.name, .str u⟩, written ((names k u).map (fun n => (n, F n)))) := by
  unfold extractAll at hx
  rw [hF] at hx
  simp only [Option.bind_eq_some_iff, Option.map_eq_some_iff] at hx
  obtain ⟨r, hr, p, hpo, q, hq, he⟩ := hx
  obtain ⟨qi, qo, qs⟩ := q
  simp only [Prod.mk.injEq] at he
  obtain ⟨rfl, rfl, rfl⟩ := he
  have hri : r.1 = qi := extract_info hr hq
  rw [hri, hu] at hpo
  obtain ⟨a, b, c, i, ha, hb, hc, hi, rfl⟩ := partsOut_some hpo
  obtain ⟨ka, na, wa⟩ := helpOut_shape ha
  obtain ⟨kc, nc, wc⟩ := codesOut_shape hc
  obtain ⟨ki, wi⟩ := infoOut_shape hi
  have nb := blobsOut_shape hb
  have hkeys : (a.1 ++ c.1 ++ i).map (·.1) = keys k := by
    unfold keys
    rw [List.map_append, List.map_append, ka, kc, ki]
  have hkn : ((a.1 ++ c.1 ++ i).map (·.1)).Nodup := by rw [hkeys]; exact hk.keys
  have hown : ∀ q ∈ a.1 ++ c.1 ++ i, q.1 ∉ ["name".toList, "name2".toList, "comment".toList, "header".toList, "obj_version".toList] := by
    intro q hq
    exact hk.own q.1 (by rw [← hkeys]; exact List.mem_map.mpr ⟨q, hq, rfl⟩)
  have hwf : ∀ n v, (n, some v) ∈ a.1 ++ c.1 ++ i → v.WF := by
    intro n v hm
    rcases List.mem_append.mp hm with hm | hm
    · rcases List.mem_append.mp hm with hm | hm
      · exact wa n v hm
      · exact wc n v hm
    · exact wi n v hm
  have hex := extra_ok _ hkn hown hwf
  have hown2 := rebuiltVal x y k.cls ver _ _ d qi qo qs es hq (C59_brace_file_round_trip y.win d hne hd) hex hk.ids hv hst hp hpre hl
  obtain ⟨d', hd', h', r1, r0, _, _, hh, _, _, ids, r2, _, rfl⟩ := extract_some hq
  have hsn : ((a.2 ++ b ++ c.2 ++ [(idName k.name, some (fileOf x.win (idJson qi ids))),
      (objName k.name, some (fileOf x.win (objJson ver (written (a.1 ++ c.1 ++ i)) qi r2)))]).map (·.1)).Nodup := by
    have e := hk.sources
    unfold sources at e
    rw [List.map_append, List.map_append, List.map_append, na, nb, nc]
    exact e
  have hS : ∀ q ∈ a.2 ++ b ++ c.2 ++ [(idName k.name, some (fileOf x.win (idJson qi ids))),
      (objName k.name, some (fileOf x.win (objJson ver (written (a.1 ++ c.1 ++ i)) qi r2)))],
      folder (a.2 ++ b ++ c.2 ++ [(idName k.name, some (fileOf x.win (idJson qi ids))),
      (objName k.name, some (fileOf x.win (objJson ver (written (a.1 ++ c.1 ++ i)) qi r2)))]) q.1 = q.2 :=
    fun q hq => folder_place _ q.1 q.2 hsn hq
  simp only at hS ⊢
  generalize hsrc : folder (a.2 ++ b ++ c.2 ++ [(idName k.name, some (fileOf x.win (idJson qi ids))),
      (objName k.name, some (fileOf x.win (objJson ver (written (a.1 ++ c.1 ++ i)) qi r2)))]) = S at hS ⊢
  have s1 : S (idName k.name) = some (fileOf x.win (idJson qi ids)) :=
    hS (idName k.name, _) (List.mem_append_right _ List.mem_cons_self)
  have s2 : S (objName k.name) = some (fileOf x.win (objJson ver (written (a.1 ++ c.1 ++ i)) qi r2)) :=
    hS (objName k.name, _) (List.mem_append_right _ (List.mem_cons_of_mem _ List.mem_cons_self))
  have hj : ∀ q ∈ a.1 ++ c.1 ++ i, entry (objJson ver (written (a.1 ++ c.1 ++ i)) qi r2) q.1 = q.2 :=
    fun q hq => entry_obj ver _ qi r2 q.1 q.2 hkn hq (hown q hq)
  have b1 := helpIn_of y.win k.name F u k.help a S _ ha (fun q hq => hj q (List.mem_append_left _ (List.mem_append_left _ hq)))
    (fun q hq => hS q (List.mem_append_left _ (List.mem_append_left _ (List.mem_append_left _ hq)))) hhelp
  have b2 := blobsIn_of F u k.blobs b S hb
    (fun q hq => hS q (List.mem_append_left _ (List.mem_append_left _ (List.mem_append_right _ hq))))
  have b3 := codesIn_of x.win y.win false k.name F u S _ k.codes c hc (fun q hq => hj q (List.mem_append_left _ (List.mem_append_right _ hq)))
    (fun q hq => hS q (List.mem_append_left _ (List.mem_append_right _ hq))) hcode
  have b4 := infoIn_of y.win F u k.info i _ hi (fun q hq => hj q (List.mem_append_right _ hq)) hinfo
  unfold buildFull
  rw [s1, s2]
  simp only [C58_round_trip _ _ (objJson_wf ver _ qi r2 hex (decode_names hh)), Option.bind_some, hown2, hu, rootOf_rootVal, b1, b2, b3, b4, Option.map_some]
  congr 2
  unfold names
  simp only [List.map_append, List.map_cons, List.map_map, hF]
  rfl

/-- what extraction records: the description is read back, and its header is the data of the object with the header taken out -/
theorem recorded {x : Ext} {k : Kind} {ver : Option Text} {F : Text → Option Node} {u : Text} {info : Info} {os : List Obj} {src : List (Place Bytes)}
    (hk : Good k) (hx : extractAll x k ver F u = some (info, os, src)) :
    ∃ b d h' r1 r2 ids r3 bo j, F u = some (.file b) ∧ braceRead b = some d ∧ V8.Product.setAt (rootVal d) k.cls.path (.list h') = some r1 ∧
      takeIncludes x k.cls r1 = some (r2, os) ∧ hideIds k.cls ver r2 = some (ids, r3) ∧ folder src (objName k.name) = some bo ∧
      readFile bo = some j ∧ treeAt j "header".toList = some r3 ∧
      ∃ bi, folder src (idName k.name) = some bi ∧ readFile bi = some (idJson info ids) := by
  unfold extractAll at hx
  cases hF : F u with
  | none => rw [hF] at hx; cases hx
  | some nd =>
  cases nd with
  | dir f => rw [hF] at hx; cases hx
  | file b =>
  rw [hF] at hx
  simp only [Option.bind_eq_some_iff, Option.map_eq_some_iff] at hx
  obtain ⟨r, hr, p, hpo, q, hq, he⟩ := hx
  obtain ⟨qi, qo, qs⟩ := q
  simp only [Prod.mk.injEq] at he
  obtain ⟨rfl, rfl, rfl⟩ := he
  obtain ⟨a, b', c, i, ha, hb, hc, hi, rfl⟩ := partsOut_some hpo
  obtain ⟨ka, na, wa⟩ := helpOut_shape ha
  obtain ⟨kc, nc, wc⟩ := codesOut_shape hc
  obtain ⟨ki, wi⟩ := infoOut_shape hi
  have nb := blobsOut_shape hb
  have hkeys : (a.1 ++ c.1 ++ i).map (·.1) = keys k := by
    unfold keys
    rw [List.map_append, List.map_append, ka, kc, ki]
  have hex := extra_ok (a.1 ++ c.1 ++ i) (by rw [hkeys]; exact hk.keys) (by
    intro q hq
    exact hk.own q.1 (by rw [← hkeys]; exact List.mem_map.mpr ⟨q, hq, rfl⟩)) (by
    intro n v hm
    rcases List.mem_append.mp hm with hm | hm
    · rcases List.mem_append.mp hm with hm | hm
      · exact wa n v hm
      · exact wc n v hm
    · exact wi n v hm)
  obtain ⟨d, hd, h', r1, r2, hbr, _, hh, hs, ht, ids, r3, hi3, rfl⟩ := extract_some hq
  have hnames := hideIds_names hk.ids hi3
  have hnd : ((a.2 ++ b' ++ c.2 ++ [(idName k.name, some (fileOf x.win (idJson qi ids))),
      (objName k.name, some (fileOf x.win (objJson ver (written (a.1 ++ c.1 ++ i)) qi r3)))]).map (·.1)).Nodup := by
    have e := hk.sources
    unfold sources at e
    rw [List.map_append, List.map_append, List.map_append, na, nb, nc]
    exact e
  exact ⟨b, d, h', r1, r2, ids, r3, _, _, rfl, hbr, hs, ht, hi3, folder_place _ (objName k.name) (some _) hnd
    (List.mem_append_right _ (List.mem_cons_of_mem _ List.mem_cons_self)), C58_round_trip _ _ (objJson_wf ver _ qi r3 hex (decode_names hh)),
    treeAt_header _ _ _ _, _, folder_place _ (idName k.name) (some _) hnd (List.mem_append_right _ List.mem_cons_self),
    C58_round_trip _ _ (idJson_wf qi ids hnames.1 hnames.2)⟩

/-- C60.  Any object of a class without collisions, with any of its files present or missing, in any encodings: if its files are ones that come
back each for itself (modules: C49; help: C52; the object file: C59), the build writes exactly the files of the container that belong to the class, with
their contents, each in its place, and nothing else. -/
theorem C60_object_files (x : Ext) (y : Bld) (k : Kind) (ver : Option Text) (F : Text → Option Node) (u : Text) (d : List (List Val))
    (info : Info) (os : List Obj) (src : List (Place Bytes)) (es : List Entry) (hk : Good k)
    (hx : extractAll x k ver F u = some (info, os, src)) (hu : info.uuid = u)
    (hF : F u = some (.file (braceFile y.win d))) (hne : d ≠ []) (hd : WFFile d)
    (hv : k.cls.ids = [] ∨ v803 y.ver = v803 ver) (hst : Unstamped y.prod k.cls (headerOf k.cls d))
    (hauto : x.auto = false) (hE : y.E = x.E) (hp : y.p = x.p) (hpre : PrefixOk x.p y.parent (headerOf k.cls d))
    (hdel : Delivers x.E es os) (hgap : ∀ v ∈ slotsOf d, NoGap v)
    (hcode : ∀ c ∈ k.codes, CodeOk y.win false (F (dot u c.2))) (hhelp : ∀ s, k.help = some s → PageOk y.win (F (dot u s)))
    (hinfo : ∀ s, k.info = some s → InfoOk y.win (F (dot u s))) :
    buildAll y k es (folder src) = some (written ((names k u).map (fun n => (n, F n)))) := by
  unfold buildAll
  rw [object_full x y k ver F u d info os src es hk hx hu hF hne hd hv hst hp hpre
    (fun _ inc inc' hs hdi => by
      rw [hauto] at hdi
      rw [hE]
      exact C57_lists_round_trip x.E inc inc' os es hdi hdel (by rw [hs]; exact hgap) y.auto) hcode hhelp hinfo]
  rfl

theorem dot_inj {u a b : Text} (h : dot u a = dot u b) : a = b := by
  unfold dot at h
  have := List.append_cancel_left h
  cases this
  rfl

theorem dot_ne (u a : Text) : dot u a ≠ u := by
  intro h
  have := congrArg List.length h
  unfold dot at this
  rw [List.length_append, List.length_cons] at this
  omega

theorem names_nodup (k : Kind) (u : Text) (hk : Good k) : (names k u).Nodup := by
  have e : (names k u).Perm (u :: (k.help.toList ++ k.blobs.map (·.1) ++ k.codes.map (·.2) ++ k.info.toList).map (dot u)) := by
    unfold names
    simp only [List.map_append, List.map_map, List.append_assoc]
    have : ∀ (a b c : List Text), (a ++ (b ++ u :: c)).Perm (u :: (a ++ (b ++ c))) := by
      intro a b c
      rw [← List.append_assoc, ← List.append_assoc]
      exact List.perm_middle
    exact this _ _ _
  rw [e.nodup_iff, List.nodup_cons]
  refine ⟨?_, ?_⟩
  · intro hm
    obtain ⟨a, _, ha⟩ := List.mem_map.mp hm
    exact dot_ne u a ha
  · have h2 := hk.suffixes
    rw [List.Nodup, List.pairwise_map]
    exact h2.imp (fun hab he => hab (dot_inj he))

/-- C60, file by file: a file is in the result exactly if its name belongs to the class and it was in the container, with the same content, and each
name is written once.  In particular a file with a suffix the class does not know is silently lost. -/
theorem C60_exactly (k : Kind) (u : Text) (F : Text → Option Node) (hk : Good k) :
    (∀ n v, (n, v) ∈ written ((names k u).map (fun n => (n, F n))) ↔ n ∈ names k u ∧ F n = some v) ∧
    ((written ((names k u).map (fun n => (n, F n)))).map (·.1)).Nodup := by
  constructor
  · intro n v
    rw [mem_written, List.mem_map]
    constructor
    · rintro ⟨m, hm, he⟩
      obtain ⟨rfl, he2⟩ := Prod.mk.inj he
      exact ⟨hm, he2⟩
    · rintro ⟨hm, he⟩
      exact ⟨n, hm, by rw [he]⟩
  · rw [List.Nodup, List.pairwise_map]
    apply written_keys
    rw [List.map_map]
    have := names_nodup k u hk
    simpa [Function.comp_def] using this

theorem extractVal_info {x : Ext} {c : Cls} {ver : Option Text} {e1 e2 : List (Text × JT)} {b : Val} {r1 r2 : Info × List Obj × Object.Src}
    (h1 : extractVal x c ver e1 b = some r1) (h2 : extractVal x c ver e2 b = some r2) : r1.1 = r2.1 := by
  obtain ⟨i1, o1, s1⟩ := r1
  obtain ⟨i2, o2, s2⟩ := r2
  obtain ⟨hd, h', _, _, a2, a3, _⟩ := extractVal_some h1
  obtain ⟨hd2, h2', _, _, b2, b3, _⟩ := extractVal_some h2
  rw [a2] at b2
  cases b2
  rw [a3] at b3
  cases b3
  rfl

/-- the names in the container that belong to an inner object -/
def innerNames (k : Kind) (u : Text) : List Text := k.codes.map (fun c => dot u c.2)

/-- the header of an inner object in its data -/
def innerHeader (c : Cls) (v : Val) : List Val := match getAt v c.path with
  | some (.list h) => h
  | _ => []

/-- C60 for objects kept inside their parent (commands): the data handed to the parent are the ones that stood there, the module comes back. -/
theorem C60_inner_object (x : Ext) (y : Bld) (k : Kind) (F : Text → Option Node) (v : Val) (info : Info) (src : List (Place Bytes))
    (hk : Good k) (hno : k.cls.includes = false) (hids : k.cls.ids = []) (hst : k.cls.stamp = false) (hh : k.help = none) (hb : k.blobs = []) (hi : k.info = none)
    (hx : innerAll x k F v = some (info, src)) (hp : y.p = x.p) (hpre : PrefixOk x.p y.parent (innerHeader k.cls v))
    (hcode : ∀ c ∈ k.codes, CodeOk y.win false (F (dot info.uuid c.2))) :
    innerFull y k (folder src) = some (some ⟨info.uuid, info.name, v⟩, written ((innerNames k info.uuid).map (fun n => (n, F n)))) := by
  unfold innerAll at hx
  simp only [Option.bind_eq_some_iff, Option.map_eq_some_iff] at hx
  obtain ⟨r, hr, p, hpo, q, hq, he⟩ := hx
  obtain ⟨qi, qo, qs⟩ := q
  simp only [Prod.mk.injEq] at he
  obtain ⟨rfl, rfl⟩ := he
  have hri : r.1 = qi := extractVal_info hr hq
  rw [hri] at hpo
  obtain ⟨a, b, c, i, ha, hb', hc, hi', rfl⟩ := partsOut_some hpo
  rw [hh, helpOut] at ha
  rw [hb, blobsOut] at hb'
  rw [hi, infoOut] at hi'
  cases ha
  cases hb'
  cases hi'
  obtain ⟨kc, nc, wc⟩ := codesOut_shape hc
  simp only [List.nil_append, List.append_nil] at hq ⊢
  have hkeys : c.1.map (·.1) = keys k := by
    unfold keys
    rw [kc, hh, hi]
    simp
  have hkn : (c.1.map (·.1)).Nodup := by rw [hkeys]; exact hk.keys
  have hown : ∀ q ∈ c.1, q.1 ∉ ["name".toList, "name2".toList, "comment".toList, "header".toList, "obj_version".toList] := by
    intro q hq
    exact hk.own q.1 (by rw [← hkeys]; exact List.mem_map.mpr ⟨q, hq, rfl⟩)
  have hex := extra_ok _ hkn hown wc
  obtain ⟨hd, h', r1, r2, hg, hdec, hs, ht, ids, r3, hid, rfl⟩ := extractVal_some hq
  unfold takeIncludes at ht
  rw [if_neg (by rw [hno]; exact Bool.false_ne_true)] at ht
  cases ht
  have hpre' : innerHeader k.cls v = hd := by unfold innerHeader; rw [hg]
  rw [hpre'] at hpre
  obtain ⟨name, hn, hpre⟩ := hpre
  have henc : encodeHeader y.p y.parent qi h' = some hd := by
    rw [hp]
    exact (C33_rebuilt_iff_partial x.valid x.p y.parent name hd h' qi hdec hn).mpr hpre
  have hid' : hideIds k.cls none r1 = some ([], r1) := by unfold hideIds; rw [if_pos (.inl hids)]
  rw [hid'] at hid
  cases hid
  have hbv := build_of x y k.cls none (written c.1) [] v hd h' qi r1 r1 r1 [] hex hk.ids (.inl hids) hid'
    (fun h => by rw [hst] at h; cases h) hg hdec hs
    (by unfold putIncludes; rw [if_neg (by rw [hno]; exact Bool.false_ne_true)]) henc
  have hsn : ((c.2 ++ [(idName k.name, some (fileOf x.win (idJson qi []))),
      (objName k.name, some (fileOf x.win (objJson none (written c.1) qi r1)))]).map (·.1)).Nodup := by
    have e := hk.sources
    unfold sources at e
    rw [hh, hb] at e
    rw [List.map_append, nc]
    simpa using e
  have hS : ∀ q ∈ c.2 ++ [(idName k.name, some (fileOf x.win (idJson qi []))),
      (objName k.name, some (fileOf x.win (objJson none (written c.1) qi r1)))],
      folder (c.2 ++ [(idName k.name, some (fileOf x.win (idJson qi []))),
      (objName k.name, some (fileOf x.win (objJson none (written c.1) qi r1)))]) q.1 = q.2 :=
    fun q hq => folder_place _ q.1 q.2 hsn hq
  simp only at hS ⊢
  generalize hsrc : folder (c.2 ++ [(idName k.name, some (fileOf x.win (idJson qi []))),
      (objName k.name, some (fileOf x.win (objJson none (written c.1) qi r1)))]) = S at hS ⊢
  have s1 : S (idName k.name) = some (fileOf x.win (idJson qi [])) :=
    hS (idName k.name, _) (List.mem_append_right _ List.mem_cons_self)
  have s2 : S (objName k.name) = some (fileOf x.win (objJson none (written c.1) qi r1)) :=
    hS (objName k.name, _) (List.mem_append_right _ (List.mem_cons_of_mem _ List.mem_cons_self))
  have hj : ∀ q ∈ c.1, entry (objJson none (written c.1) qi r1) q.1 = q.2 :=
    fun q hq => entry_obj none _ qi r1 q.1 q.2 hkn hq (hown q hq)
  have b3 := codesIn_of x.win y.win false k.name F qi.uuid S _ k.codes c hc hj (fun q hq => hS q (List.mem_append_left _ hq)) hcode
  unfold innerFull
  rw [s1, s2]
  simp only [C58_round_trip _ _ (objJson_wf none _ qi r1 hex (decode_names hdec)), Option.bind_some, hbv, b3, Option.map_some]
  congr 2
  unfold innerNames
  simp only [List.map_map]
  rfl

/-- C60: none of the classes of the tool has a collision among its entries, its source files or its suffixes. -/
theorem C60_classes_good : ∀ k ∈ kinds, Good k := by
  have h : ∀ k ∈ kinds, (keys k).Nodup ∧
      (∀ q ∈ keys k, q ∉ ["name".toList, "name2".toList, "comment".toList, "header".toList, "obj_version".toList]) ∧ (sources k).Nodup ∧
      (k.help.toList ++ k.blobs.map (·.1) ++ k.codes.map (·.2) ++ k.info.toList).Nodup ∧ (k.cls.ids.map (·.1)).Nodup ∧
      "uuid".toList ∉ k.cls.ids.map (·.1) ∧ (k.cls.ids.map (·.2)).Nodup := by decide +kernel
  intro k hk
  obtain ⟨h1, h2, h3, h4, h5⟩ := h k hk
  exact ⟨h1, h2, h3, h4, ⟨h5.1, h5.2.1, h5.2.2⟩⟩

/-- C60 is false of the code for a module folder with an empty `info` file: whatever the text of the module, the build writes nothing for it, without
an error. -/
theorem C60_module_with_empty_info_lost (w win cd : Bool) (k : Text) (F : Text → Option Node) (u : Text) (c : Text × Text) (S : Text → Option Bytes)
    (j : JT) (f : Text → Option Bytes) (hF : F (dot u c.2) = some (.dir f)) (hi : f "info".toList = some []) (r : List (Place JT) × List (Place Bytes))
    (h : codeOut w cd k F u c = some r) (hj : ∀ q ∈ r.1, entry j q.1 = q.2) : codeIn win cd k S j u c = some (dot u c.2, none) := by
  have hb : braceRead [] = some [] := by
    unfold braceRead
    have : utf8SigText [] = some [] := by decide +kernel
    rw [this]
    decide +kernel
  unfold codeOut at h
  rw [Option.map_eq_some_iff] at h
  obtain ⟨st, hst, rfl⟩ := h
  rw [hF, storedOf, hi, Option.bind_some, hb] at hst
  cases hst
  have hi := hj _ List.mem_cons_self
  unfold codeIn
  have : codeInfo j c.1 = some none := by
    unfold codeInfo
    rw [hi]
    rfl
  rw [this]

/-- C60: without one of its two JSON files an object is passed over: nothing is written for it, nothing is handed to its parent, and there is no
error, whatever other files its folder has. -/
theorem C60_json_missing (y : Bld) (k : Kind) (es : List Entry) (S : Text → Option Bytes) (h : S (idName k.name) = none ∨ S (objName k.name) = none) :
    buildFull y k es S = some (none, []) ∧ innerFull y k S = some (none, []) ∧ buildAll y k es S = some [] := by
  have h1 : buildFull y k es S = some (none, []) := by
    unfold buildFull
    rcases h with h | h
    · rw [h]
    · rw [h]; cases S (idName k.name) <;> rfl
  refine ⟨h1, ?_, ?_⟩
  · unfold innerFull
    rcases h with h | h
    · rw [h]
    · rw [h]; cases S (idName k.name) <;> rfl
  · unfold buildAll
    rw [h1]
    rfl

/-! ## an example: a catalog with two modules (one in a folder), a large help page, predefined data and a file the class does not know -/

def exCat : List (List Val) :=
  [[.str ['7'], .list [.str ['1'], .str ['2'], .str ['3'], .str ['4'], .str ['5'], .str ['6'], .str ['7'], .str ['8'], .str ['9'],
      .list [.str ['5'], .list exHead]], .str ['4'],
   .list [.str ['f'], .str ['2'], .str ['u', '1'], .str ['u', '2']],
   .list [.str ['c'], .str ['1'], .list [.str ['k', '1'], .str ['d']]],
   .list [.str ['a'], .str ['1'], .list [.str ['z']]],
   .list [.str ['q'], .str ['1'], .str ['?']]]]

def exKind : Kind := kind "Catalog" [9, 1] true [("mgr", "3"), ("obj", "0")] (some "1") [predefined "1c"] none

def exU : Text := "0b1".toList

theorem exBig_ex : ∃ b : Bytes, 1000000 < b.length := ⟨List.replicate 1000001 0, by rw [List.length_replicate]; omega⟩

noncomputable def exBig : Bytes := exBig_ex.choose

theorem exBig_long : 1000000 < exBig.length := exBig_ex.choose_spec

noncomputable def exF : Text → Option Node := fun n =>
  if n = exU then some (.file (braceFile false exCat))
  else if n = dot exU "0".toList then some (.dir (modDir (braceFile false [[.str ['3']]]) (utf8 "Процедура А()\nКонецПроцедуры\n".toList)))
  else if n = dot exU "3".toList then some (.file (utf8 "Функция Б() Экспорт\n".toList))
  else if n = dot exU "1".toList then some (.file (exBig))
  else if n = dot exU "1c".toList then some (.file [1, 2, 3])
  else if n = dot exU "99".toList then some (.file [4])
  else none

theorem exCat_wf : WFFile exCat := fileB_ok exCat (by decide +kernel)

theorem ex_mem : exKind ∈ kinds := by
  unfold kinds exKind
  simp only [List.mem_cons, true_or, or_true]

theorem exF_own : exF exU = some (.file (braceFile false exCat)) := by unfold exF; rw [if_pos rfl]

theorem exF_obj : exF (dot exU "0".toList) =
    some (.dir (modDir (braceFile false [[.str ['3']]]) (utf8 "Процедура А()\nКонецПроцедуры\n".toList))) := by
  unfold exF; rw [if_neg (by decide), if_pos rfl]

theorem exF_mgr : exF (dot exU "3".toList) = some (.file (utf8 "Функция Б() Экспорт\n".toList)) := by
  unfold exF; rw [if_neg (by decide), if_neg (by decide), if_pos rfl]

theorem exF_help : exF (dot exU "1".toList) = some (.file (exBig)) := by
  unfold exF; rw [if_neg (by decide), if_neg (by decide), if_neg (by decide), if_pos rfl]

theorem exF_pre : exF (dot exU "1c".toList) = some (.file [1, 2, 3]) := by
  unfold exF; rw [if_neg (by decide), if_neg (by decide), if_neg (by decide), if_neg (by decide), if_pos rfl]

theorem ex_rebuilt (t : Text) (h : '\r' ∉ t) : Rebuilt false false (utf8 t) (utf8 t) :=
  (V8.Module.C49_utf8_same_iff false false t).mpr ((V8.Module.C49_unix_iff t).mpr h)

theorem ex_obj_ok : CodeOk false false (exF (dot exU "0".toList)) :=
  .inr (.inr ⟨_, _, exF_obj, by decide, fileB_ok _ (by decide +kernel), ex_rebuilt _ (by decide +kernel)⟩)

theorem ex_mgr_ok : CodeOk false false (exF (dot exU "3".toList)) :=
  .inr (.inl ⟨_, exF_mgr, ex_rebuilt _ (by decide +kernel)⟩)

theorem storedOf_ok {win : Bool} {n : Option Node} (h : CodeOk win false n) : ∃ st, storedOf n = some st := by
  rcases h with rfl | ⟨b, rfl, _⟩ | ⟨i, b, rfl, hne, hwf, _⟩
  · exact ⟨_, rfl⟩
  · exact ⟨_, rfl⟩
  · have e1 : modDir (braceFile win i) b "info".toList = some (braceFile win i) := by unfold modDir; rw [if_pos rfl]
    have e2 : braceRead (braceFile win i) = some i := C59_brace_file_round_trip win i hne hwf
    exact ⟨.dir i (modDir (braceFile win i) b "text".toList) (modDir (braceFile win i) b "image".toList) (modDir (braceFile win i) b "bin".toList),
      by rw [storedOf, e1, Option.bind_some, e2]; rfl⟩

theorem big_page (big : Bytes) (h : 1000000 < big.length) : htmlOut tree (some big) = some ⟨none, some big, none⟩ := by
  rw [htmlOut, if_pos h]

theorem ex_parts : ∃ p, partsOut true exKind exF exU = some p := by
  obtain ⟨s1, h1⟩ := storedOf_ok ex_mgr_ok
  obtain ⟨s2, h2⟩ := storedOf_ok ex_obj_ok
  have hb : fileAt exF (dot exU "1c".toList) = some (some [1, 2, 3]) := by unfold fileAt; rw [exF_pre]
  have hh : fileAt exF (dot exU "1".toList) = some (some (exBig)) := by unfold fileAt; rw [exF_help]
  have hho := big_page exBig exBig_long
  have p1 : ∃ h, helpOut exKind.name exF exU exKind.help = some h := by
    have : exKind.help = some "1".toList := rfl
    rw [this, helpOut, hh, Option.bind_some, hho]
    exact ⟨_, rfl⟩
  have p2 : ∃ b, blobsOut exF exU exKind.blobs = some b := by
    have : exKind.blobs = [("1c".toList, "Предустановленные данные.bin".toList)] := rfl
    rw [this, blobsOut, hb, Option.bind_some]
    exact ⟨_, rfl⟩
  have p3 : ∃ c, codesOut true false exKind.name exF exU exKind.codes = some c := by
    have : exKind.codes = [("mgr".toList, "3".toList), ("obj".toList, "0".toList)] := rfl
    rw [this, codesOut, codeOut, h1, Option.map_some, Option.bind_some, codesOut, codeOut, h2]
    exact ⟨_, rfl⟩
  obtain ⟨h, p1⟩ := p1
  obtain ⟨b, p2⟩ := p2
  obtain ⟨c, p3⟩ := p3
  have p4 : infoOut exF exU exKind.info = some [] := rfl
  unfold partsOut
  rw [p1, Option.bind_some, p2, Option.bind_some, p3, Option.bind_some, p4]
  exact ⟨_, rfl⟩

theorem ex_extractAll : ∃ src, extractAll (exX false) exKind "803".toList exF exU = some (exInfo, exObjs, src) := by
  have hb := C59_brace_file_round_trip false exCat (by decide) exCat_wf
  obtain ⟨p, hp⟩ := ex_parts
  have he := fun extra => extract_of (exX false) exKind.cls "803".toList extra _ exCat exHead exHead' exInfo
      (.list [.list ((exCat.headD []).set 1 (.list [.str ['1'], .str ['2'], .str ['3'], .str ['4'], .str ['5'], .str ['6'], .str ['7'], .str ['8'],
        .str ['9'], .list [.str ['5'], .list exHead']]))])
      (.list [.list (.str ['7'] :: .list [.str ['1'], .str ['2'], .str ['3'], .str ['4'], .str ['5'], .str ['6'], .str ['7'], .str ['8'],
        .str ['9'], .list [.str ['5'], .list exHead']] :: exOut.drop 2)]) exObjs hb (by decide +kernel)
      (by decide +kernel) (by decide +kernel) (by decide +kernel) (.inl rfl)
  unfold extractAll
  rw [exF_own]
  simp only [he, Option.bind_some]
  have hp' : partsOut (exX false).win exKind exF exInfo.uuid = some p := hp
  rw [hp']
  exact ⟨_, rfl⟩

/-- extracted on Windows, built on Unix: the files of the class are written again, in this order; `0b1.99` is lost -/
example : ∃ info os src, extractAll (exX false) exKind "803".toList exF exU = some (info, os, src) ∧
    buildAll (exY false) exKind exEntries (folder src) = some (written ((["0b1.1", "0b1.1c", "0b1", "0b1.3", "0b1.0"].map String.toList).map (fun n => (n, exF n)))) ∧
    exF "0b1.99".toList = some (.file [4]) := by
  obtain ⟨src, h⟩ := ex_extractAll
  refine ⟨_, _, src, h, ?_, ?_⟩
  · have := C60_object_files (exX false) (exY false) exKind _ exF exU exCat exInfo exObjs src exEntries (C60_classes_good _ ex_mem) h rfl exF_own (by decide)
      exCat_wf (.inl rfl) (fun h => by cases h) rfl rfl rfl ⟨"ОО_Склады".toList, by decide +kernel, by rw [if_pos (by decide +kernel)]; exact ⟨"Склады".toList, by decide⟩⟩
      ex_delivers (by decide +kernel)
      (by
        intro c hc
        have hc : c = ("mgr".toList, "3".toList) ∨ c = ("obj".toList, "0".toList) := by
          rcases List.mem_cons.mp hc with hc | hc
          · exact .inl hc
          · exact .inr (List.mem_singleton.mp hc)
        rcases hc with rfl | rfl
        · exact ex_mgr_ok
        · exact ex_obj_ok)
      (by
        intro s hs
        cases hs
        exact .inr (.inl ⟨_, exF_help, exBig_long⟩))
      (by intro s hs; cases hs)
    have hn : names exKind exU = ["0b1.1", "0b1.1c", "0b1", "0b1.3", "0b1.0"].map String.toList := by decide +kernel
    rw [hn] at this
    exact this
  · have e : "0b1.99".toList = dot exU "99".toList := by decide
    rw [e]
    unfold exF
    rw [if_neg (by decide), if_neg (by decide), if_neg (by decide), if_neg (by decide), if_neg (by decide), if_pos rfl]

/-- a catalog whose identifier file was deleted -/
example (y : Bld) : buildAll y exKind [] (fun n => if n = objName exKind.name then some [1] else none) = some [] :=
  (C60_json_missing y exKind [] _ (.inl (if_neg (by decide +kernel)))).2.2

/-- C59, the recorded version: whatever is extracted, the description file, read back as JSON, says under `obj_version` for which version of the
platform the object was extracted (a text), or `null` when none is known. -/
theorem C59_version_recorded (x : Ext) (c : Object.Cls) (ver : Option Text) (extra : List (Text × JT)) (b : Bytes) (info : Info) (os : List Obj) (s : Src)
    (hx : extract x c ver extra b = some (info, os, s)) (he : ExtraOk extra) :
    ∃ d, readFile s.obj = some (.obj d) ∧ ("obj_version".toList, ver.elim JT.null JT.str) ∈ d ∧
      ∀ v, ("obj_version".toList, v) ∈ d → v = ver.elim JT.null JT.str := by
  obtain ⟨d, hd, h', r1, r0, _, _, hh, _, _, ids, r2, _, rfl⟩ := extract_some hx
  have hw := objJson_wf ver extra info r2 he (decode_names hh)
  have hm : ("obj_version".toList, ver.elim JT.null JT.str) ∈ [("name".toList, JT.str info.name), ("name2".toList, .obj (info.name2.map (fun p => (p.1, .str p.2)))),
    ("comment".toList, .str info.comment), ("header".toList, jsonOf r2)] ++ extra ++ [("obj_version".toList, verJson ver)] := by
    refine List.mem_append_right _ (List.mem_singleton.mpr ?_)
    cases ver <;> rfl
  refine ⟨_, C58_round_trip _ _ hw, hm, ?_⟩
  intro v hv
  rw [objJson, JT.WF] at hw
  have key : ∀ (l : List (Text × JT)), l.Pairwise (fun a b => a.1 ≠ b.1) → ∀ k a b, (k, a) ∈ l → (k, b) ∈ l → a = b := by
    intro l
    induction l with
    | nil => intro _ k a b ha; cases ha
    | cons q r ih =>
      intro hl k a b ha hb
      rw [List.pairwise_cons] at hl
      rcases List.mem_cons.mp ha with ha | ha
      · rcases List.mem_cons.mp hb with hb | hb
        · rw [← ha] at hb
          exact (Prod.mk.inj hb).2.symm
        · exact absurd (by rw [← ha]) (hl.1 _ hb)
      · rcases List.mem_cons.mp hb with hb | hb
        · exact absurd (by rw [← hb]) (hl.1 _ ha)
        · exact ih hl.2 k a b ha hb
  exact key _ hw.1 _ _ _ hv hm

end V8.Store
