import Verif.AreasLemmas
/-
C32 (include areas of forms), C54 (a shared area in a form that only reads it).
Model: Verif/Areas.lean.

`unpack names inc main fs e` is the state of the files after extraction has laid out the elements `e` of a form: the elements of every group
`include_X` go to the file `inc X`, the rest to the file `main`.  `pack names inc main fs` is what the build makes of these files.  A file holds a
tree, the data by path and other things (`extra`).  `areaList tree` lists the areas of a tree (kind, name, is there a list of elements).
-/
namespace V8.Areas
open V8.Brace V8.Form

variable {V F : Type} [DecidableEq F]

theorem assign_new {β : Type} (d : List (Text × β)) (k : Text) (v : β) (h : k ∉ d.map (·.1)) : assign d k v = d ++ [(k, v)] := by
  rw [assign, if_neg h]

theorem foldl_assign {β : Type} (l : List (Text × β)) : ∀ d : List (Text × β), ((d ++ l).map (·.1)).Nodup →
    l.foldl (fun d a => assign d a.1 a.2) d = d ++ l := by
  induction l with
  | nil => intro d _; rw [List.append_nil]; rfl
  | cons a r ih =>
    intro d h
    rw [List.foldl_cons, assign_new]
    · rw [ih]
      · rw [List.append_assoc]; rfl
      · rw [List.append_assoc]; exact h
    · intro hm
      rw [List.map_append, List.nodup_append] at h
      exact h.2.2 a.1 hm a.1 (List.mem_map.mpr ⟨a, List.mem_cons_self, rfl⟩) rfl

/-- where an entry of the dictionary of areas goes -/
def place (inc : Text → F) (main : F) (n : Text) : F := if n = rootWord then main else inc n

theorem writeAreas_not (inc : Text → F) (main : F) (l : List (Text × Elems V)) : ∀ (fs : F → Option (Elems V)) (f : F),
    f ∉ l.map (fun a => place inc main a.1) → writeAreas inc main l fs f = fs f := by
  induction l with
  | nil => intro fs f _; rfl
  | cons a r ih =>
    intro fs f h
    rw [List.map_cons, List.mem_cons, not_or] at h
    rw [writeAreas, ih _ _ h.2]
    exact if_neg h.1

theorem writeAreas_mem (inc : Text → F) (main : F) (l : List (Text × Elems V)) : ∀ (fs : F → Option (Elems V)),
    (l.map (fun a => place inc main a.1)).Nodup → ∀ a ∈ l, writeAreas inc main l fs (place inc main a.1) = some a.2 := by
  induction l with
  | nil => intro fs _ a ha; cases ha
  | cons b r ih =>
    intro fs h a ha
    rw [List.map_cons, List.nodup_cons] at h
    rw [writeAreas]
    rcases List.mem_cons.mp ha with ha | ha
    · rw [ha, writeAreas_not _ _ _ _ _ h.1]
      exact if_pos rfl
    · exact ih _ h.2 a ha

/-- **C32** (partial): the elements that extraction moved to the files of the areas come back: the build gives the tree and the data of the form as
they were, for every tree, every nesting, every number of areas and whatever was in the files before, provided that
* all areas are `include_` areas, and are groups (have a list of nested elements, maybe empty);
* no area is called `root`, and no two areas go to one file, nor an area to the file of the form;
* the build looks for the files where the extraction put them. -/
theorem C32_areas_round_trip_partial (names : V → List Text) (inc incIn : Text → F) (main : F) (fs fs' : F → Option (Elems V)) (e : Elems V)
    (h : unpack names inc main fs e = some fs')
    (groups : ∀ a ∈ areaList e.tree, a.1 = true ∧ a.2.2 = true)
    (noRoot : ∀ a ∈ areaList e.tree, a.2.1 ≠ rootWord)
    (files : (main :: (areaList e.tree).map (fun a => inc a.2.1)).Nodup)
    (same : ∀ a ∈ areaList e.tree, incIn a.2.1 = inc a.2.1) :
    pack names incIn main fs' = some e := by
  rw [unpack] at h
  cases ho : areasOut names e.tree [] e.data with
  | none => rw [ho] at h; cases h
  | some q =>
    obtain ⟨tree, data, areas⟩ := q
    rw [ho] at h
    simp only at h
    have hnames : areas.map (·.1) = (areaList e.tree).map (·.2.1) := by
      exact areaNames_eq names e.tree [] e.data data tree areas ho groups
    have hn1 : ((areas.map (·.1))).Nodup := by
      rw [hnames]
      rw [List.nodup_cons] at files
      have := files.2
      have e2 : (areaList e.tree).map (fun a => inc a.2.1) = ((areaList e.tree).map (·.2.1)).map inc := by rw [List.map_map]; rfl
      rw [e2] at this
      exact List.Pairwise.of_map inc (fun a b hab hEq => hab (by rw [hEq])) this
    have hn2 : rootWord ∉ areas.map (·.1) := by
      rw [hnames, List.mem_map]
      rintro ⟨a, ha, h1⟩
      exact noRoot a ha h1
    have hf := foldl_assign areas [] hn1
    rw [List.nil_append] at hf
    rw [hf, assign_new _ _ _ hn2] at h
    have hloc : ((areas ++ [(rootWord, (⟨tree, data, e.extra⟩ : Elems V))]).map (fun a => place inc main a.1)).Nodup := by
      have e1 : areas.map (fun a => place inc main a.1) = (areaList e.tree).map (fun a => inc a.2.1) := by
        have : areas.map (fun a => place inc main a.1) = (areas.map (·.1)).map (place inc main) := by rw [List.map_map]; rfl
        rw [this, hnames, List.map_map]
        apply List.map_congr_left
        intro a ha
        show place inc main a.2.1 = inc a.2.1
        rw [place, if_neg (noRoot a ha)]
      rw [List.map_append, e1, List.map_cons, List.map_nil, place, if_pos rfl]
      rw [List.nodup_cons] at files
      rw [List.nodup_append]
      refine ⟨files.2, List.nodup_cons.mpr ⟨List.not_mem_nil, List.nodup_nil⟩, ?_⟩
      intro a ha b hb hab
      rw [List.mem_singleton] at hb
      rw [hab, hb] at ha
      exact files.1 ha
    have hw := writeAreas_mem inc main _ fs hloc
    have hmain := hw (rootWord, ⟨tree, data, e.extra⟩) (List.mem_append_right _ (List.mem_singleton.mpr rfl))
    rw [place, if_pos rfl, Option.some.inj h] at hmain
    have hread : ∀ a ∈ areas, (fun n => fs' (incIn n)) a.1 = some a.2 := by
      intro a ha
      have h1 := hw a (List.mem_append_left _ ha)
      have hm : a.1 ∈ (areaList e.tree).map (·.2.1) := by rw [← hnames]; exact List.mem_map.mpr ⟨a, ha, rfl⟩
      rw [List.mem_map] at hm
      obtain ⟨b, hb, hba⟩ := hm
      rw [place, if_neg (by rw [← hba]; exact noRoot b hb), Option.some.inj h] at h1
      show fs' (incIn a.1) = _
      rw [← hba, same b hb, hba, h1]
    obtain ⟨E, n1, n2, n3, n4, _⟩ := areas_rt names (fun n => fs' (incIn n)) e.tree [] e.data data tree areas ho groups hread
    rw [pack, hmain]
    simp only
    rw [n4, n3, putAll_eraseAll e.data E n1 n2]

/-! ### C54 -/

/-- **C54** (partial): when the file of an area is merged into a form, every element of the file is found under the path of the group with exactly the
data it has in the file, and whatever is not in the file keeps its data in the form; this holds for `include_` and for `includr_` groups, every tree
and every file.  (For `includr_` provided the file was written for an `include_` group, so that no list of pages is filed under `includr_`.) -/
theorem C54_shared_elements_in_place_partial (names : V → List Text) (tree : List Node) (area append : Text) (t : Bool) (form form' file rest : Dict V)
    (h : addArea names tree ((if t then include' else includr) ++ area) append t (form, file) = some (form', rest))
    (own : t = false → file ((includr ++ area) ++ pagesKey) = none) :
    (∀ p ∈ elemPaths tree (include' ++ area), ∃ v, file p = some v ∧ form' (under append p) = some v) ∧
    (∀ k, (∀ p, file p ≠ none → k ≠ under append p) → form' k = form k) := by
  have hp := pre_of append
  generalize (if append = [] then [] else append ++ ['/']) = pre at hp
  have hinj : ∀ a b : Text, under append a = under append b → a = b := by
    intro a b hab
    rw [hp.under, hp.under] at hab
    exact List.append_cancel_left hab
  rw [addArea] at h
  have hpath : (if t then (if t then include' else includr) ++ area else include' ++ ((if t then include' else includr) ++ area).drop 8) = include' ++ area := by
    cases t <;> rfl
  rw [hpath] at h
  cases hl : addLoop names append tree (include' ++ area) (form, file) with
  | none => rw [hl] at h; cases h
  | some q =>
    obtain ⟨R1, A1⟩ := q
    rw [hl] at h
    obtain ⟨e1, a1, a2, a3, a4, a5⟩ := add_loop names append pre hp tree (include' ++ area) form R1 file A1 hl
    have hpg : ∃ e2 : List (Text × V), (keys e2).Nodup ∧ (∀ e ∈ e2, A1 e.1 = some e.2) ∧ form' = putAll R1 (shift pre e2) := by
      cases t with
      | true =>
        obtain ⟨e2, b1, b2, b3, b4⟩ := add_pages names append pre hp (include' ++ area) R1 A1
        have h' : addPages names append (include' ++ area) (include' ++ area) (R1, A1) = (form', rest) := Option.some.inj h
        rw [h'] at b3
        exact ⟨e2, b1, b2, b3⟩
      | false =>
        refine ⟨[], List.nodup_nil, (fun e he => by cases he), ?_⟩
        have hn : A1 ((includr ++ area) ++ pagesKey) = none := by
          rw [a4, eraseAll]
          by_cases hk : (includr ++ area) ++ pagesKey ∈ keys e1
          · rw [if_pos hk]
          · rw [if_neg hk]; exact own rfl
        have h' : addPages names append (includr ++ area) (include' ++ area) (R1, A1) = (form', rest) := Option.some.inj h
        rw [addPages] at h'
        simp only at h'
        rw [hn] at h'
        exact (congrArg Prod.fst h').symm
    obtain ⟨e2, b1, b2, b3⟩ := hpg
    have hdis : ∀ e ∈ e2, e.1 ∉ keys e1 := by
      intro e he hk
      have := b2 e he
      rw [a4, eraseAll, if_pos hk] at this
      cases this
    have hs : ∀ es : List (Text × V), (keys es).Nodup → (keys (shift pre es)).Nodup := by
      intro es hn
      rw [keys_shift]
      exact List.Pairwise.map _ (fun a b hab h => hab (List.append_cancel_left h)) hn
    constructor
    · intro p hpm
      have := a5 p hpm
      rw [keys, List.mem_map] at this
      obtain ⟨e, he, rfl⟩ := this
      refine ⟨e.2, a2 e he, ?_⟩
      rw [hp.under, b3, putAll_not, a3]
      · exact putAll_mem form (shift pre e1) (hs e1 a1) (pre ++ e.1, e.2) (List.mem_map.mpr ⟨e, he, rfl⟩)
      · rw [mem_keys_shift]
        intro hk
        rw [keys, List.mem_map] at hk
        obtain ⟨x, hx, hxe⟩ := hk
        apply hdis x hx
        rw [hxe]
        exact List.mem_map.mpr ⟨e, he, rfl⟩
    · intro k hk
      rw [b3, putAll_not, a3, putAll_not]
      · intro hm
        rw [keys_shift, List.mem_map] at hm
        obtain ⟨x, hx, rfl⟩ := hm
        rw [keys, List.mem_map] at hx
        obtain ⟨e, he, rfl⟩ := hx
        exact hk e.1 (by rw [a2 e he]; exact fun h => by cases h) (hp.under _).symm
      · intro hm
        rw [keys_shift, List.mem_map] at hm
        obtain ⟨x, hx, rfl⟩ := hm
        rw [keys, List.mem_map] at hx
        obtain ⟨e, he, rfl⟩ := hx
        have h2 := b2 e he
        refine hk e.1 ?_ (hp.under _).symm
        intro h0
        rw [a4, eraseAll, if_neg (hdis e he), h0] at h2
        cases h2

/-! ### concrete forms -/

def n (t : String) (child : Option (List Node)) : Node := .mk t.toList [] [] child
def np (t page : String) (child : Option (List Node)) : Node := .mk t.toList page.toList [] child
/-- a dictionary of entries; the entries are lists of names -/
def dict (l : List (String × List String)) : Dict (List Text) := fun k => (l.find? (fun e => e.1.toList = k)).map (fun e => e.2.map String.toList)
/-- what the build makes of the files after extraction, the entry under `key` -/
def built (inc : Text → Text) (fs : Text → Option (Elems (List Text))) (e : Elems (List Text)) (key : String) : Option (Option (List Text)) :=
  ((unpack id inc ['!'] fs e).bind (fun fs' => pack id inc ['!'] fs')).map (fun e => e.data key.toList)

/-- a group `include_Buttons` inside a group, with a nested panel that has a page, and another area -/
def sample : Elems (List Text) := ⟨
  [n "Header" (some [np "include_Buttons" "P1" (some [n "Ok" none, n "Box" (some [n "Cancel" none])]), n "Title" none]), n "include_Foot" (some [])],
  dict [("Header", ["h"]), ("Header/P1/include_Buttons", ["b"]), ("Header/P1/include_Buttons/Ok", ["ok"]), ("Header/P1/include_Buttons/Box", ["box"]),
    ("Header/P1/include_Buttons/Box/Cancel", ["cancel"]), ("Header/P1/include_Buttons/Box/-pages-", ["Page"]), ("Header/P1/include_Buttons/Box/Page", ["pg"]),
    ("Header/P1/include_Buttons/-pages-", []), ("Header/Title", ["t"]), ("include_Foot", ["f"])], []⟩

set_option maxRecDepth 20000 in
theorem sample_unpacks : (unpack id id ['!'] (fun _ => none) sample).isSome = true := by decide +kernel

set_option maxRecDepth 20000 in
/-- the hypotheses of C32 hold for the sample -/
example : ∃ fs', unpack id id ['!'] (fun _ => none) sample = some fs' ∧ pack id id ['!'] fs' = some sample ∧ (areaList sample.tree).length = 2 :=
  ⟨(unpack id id ['!'] (fun _ => none) sample).get sample_unpacks, (Option.some_get _).symm,
    C32_areas_round_trip_partial id id id ['!'] _ _ sample (Option.some_get _).symm (by decide +kernel) (by decide +kernel) (by decide +kernel)
      (fun _ _ => rfl), by decide +kernel⟩

set_option maxRecDepth 20000 in
/-- and the elements really move: after extraction the file of the form does not hold them, the file of the area does, under shorter paths -/
example : ((unpack id id ['!'] (fun _ => none) sample).bind (fun fs => (fs ['!']).map (fun e => e.data "Header/P1/include_Buttons/Box/Cancel".toList))) = some none ∧
    ((unpack id id ['!'] (fun _ => none) sample).bind (fun fs => (fs "Buttons".toList).map (fun e => e.data "include_Buttons/Box/Cancel".toList))) = some (some ["cancel".toList]) ∧
    ((unpack id id ['!'] (fun _ => none) sample).bind (fun fs => (fs "Buttons".toList).map (fun e => e.data "include_Buttons/Box/Page".toList))) = some (some ["pg".toList]) := by
  decide +kernel

set_option maxRecDepth 20000 in
/-- C54 for a group `includr_B` on page `P` of a group -/
example : ∃ s, addArea id [n "Ok" none, n "Box" (some [n "Cancel" none])] "includr_B".toList "H/P".toList false
      (dict [("H", ["h"]), ("H/P/includr_B", ["b"])], dict [("include_B/Ok", ["ok"]), ("include_B/Box", ["box"]), ("include_B/Box/Cancel", ["c"])]) = some s ∧
    s.1 "H/P/include_B/Box/Cancel".toList = some ["c".toList] := by
  have h : (addArea id [n "Ok" none, n "Box" (some [n "Cancel" none])] "includr_B".toList "H/P".toList false
      (dict [("H", ["h"]), ("H/P/includr_B", ["b"])], dict [("include_B/Ok", ["ok"]), ("include_B/Box", ["box"]), ("include_B/Box/Cancel", ["c"])])).isSome = true := by decide +kernel
  obtain ⟨s, hs⟩ := Option.isSome_iff_exists.mp h
  have hc := C54_shared_elements_in_place_partial id _ ['B'] _ false _ s.1 _ s.2 hs (fun _ => by decide +kernel)
  refine ⟨s, hs, ?_⟩
  · obtain ⟨v, h1, h2⟩ := hc.1 "include_B/Box/Cancel".toList (by decide +kernel)
    have h3 : dict [("include_B/Ok", ["ok"]), ("include_B/Box", ["box"]), ("include_B/Box/Cancel", ["c"])] "include_B/Box/Cancel".toList = some ["c".toList] := by decide +kernel
    rw [h3] at h1
    rw [show "H/P/include_B/Box/Cancel".toList = under "H/P".toList "include_B/Box/Cancel".toList by decide +kernel, h2, ← h1]

/-! ### what is lost -/

set_option maxRecDepth 20000 in
/-- an area called `root`: the rest of the form takes its place, its elements are in no file and the form cannot be built -/
theorem C32_area_root_lost_neg : (unpack id id ['!'] (fun _ => none)
      ⟨[n "include_root" (some [n "Ok" none])], dict [("include_root", ["r"]), ("include_root/Ok", ["ok"])], []⟩).isSome = true ∧
    built id (fun _ => none) ⟨[n "include_root" (some [n "Ok" none])], dict [("include_root", ["r"]), ("include_root/Ok", ["ok"])], []⟩ "include_root/Ok" = none := by
  constructor <;> decide +kernel

set_option maxRecDepth 20000 in
/-- two groups with the same area: the elements of the first are lost, those of the second come in both places -/
theorem C32_same_area_twice_neg :
    let e : Elems (List Text) := ⟨[n "A" (some [n "include_X" (some [n "Ok" none])]), n "B" (some [n "include_X" (some [n "No" none])])],
      dict [("A", []), ("A/include_X", []), ("A/include_X/Ok", ["ok"]), ("B", []), ("B/include_X", []), ("B/include_X/No", ["no"])], []⟩
    built id (fun _ => none) e "A/include_X/Ok" = some none ∧ built id (fun _ => none) e "A/include_X/No" = some (some ["no".toList]) := by
  constructor <;> decide +kernel

set_option maxRecDepth 20000 in
/-- a group `includr_Y` inside an area: extraction fails, although the form is in order (its elements are filed under `include_Y`) -/
theorem C32_includr_inside_area_fails_neg : (unpack id id ['!'] (fun _ => none)
      ⟨[n "include_X" (some [n "includr_Y" (some [n "Ok" none])])],
        dict [("include_X", []), ("include_X/includr_Y", []), ("include_X/include_Y/Ok", ["ok"])], []⟩).isNone = true := by
  decide +kernel

set_option maxRecDepth 20000 in
/-- the elements of an `includr_` area are not written anywhere: if there is no file of the area, extraction succeeds but the form cannot be built -/
theorem C32_includr_without_file_neg : (unpack id id ['!'] (fun _ => none)
      ⟨[n "includr_X" (some [n "Ok" none])], dict [("includr_X", []), ("include_X/Ok", ["ok"])], []⟩).isSome = true ∧
    built id (fun _ => none) ⟨[n "includr_X" (some [n "Ok" none])], dict [("includr_X", []), ("include_X/Ok", ["ok"])], []⟩ "includr_X" = none := by
  constructor <;> decide +kernel

set_option maxRecDepth 20000 in
/-- a panel `includr_X` with pages: its pages are in the shared file (written from another form with `include_X`), the elements come back from it, the list of the
pages does not: the build of the form will not find it -/
theorem C54_pages_of_includr_lost_neg :
    let shared : Elems (List Text) := ⟨[n "Ok" none], dict [("include_X/Ok", ["ok"]), ("include_X/-pages-", ["P"]), ("include_X/P", ["p"])], []⟩
    let e : Elems (List Text) := ⟨[n "includr_X" (some [n "Ok" none])],
      dict [("includr_X", ["x"]), ("include_X/Ok", ["ok"]), ("include_X/-pages-", ["P"]), ("include_X/P", ["p"])], []⟩
    let fs : Text → Option (Elems (List Text)) := fun f => if f = ['X'] then some shared else none
    e.data "include_X/-pages-".toList = some [['P']] ∧ built id fs e "include_X/Ok" = some (some ["ok".toList]) ∧
      built id fs e "include_X/-pages-" = some none := by
  refine ⟨?_, ?_, ?_⟩ <;> decide +kernel

end V8.Areas
