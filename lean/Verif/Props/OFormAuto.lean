import Verif.OFormFixPanel
import Verif.OFormAutoForm
import Verif.Props.OForm
/-
C69: ordinary forms with the option auto_include.  Model: Verif/OFormAuto.lean (`formOut ni depth raw`: extraction, `formIn depth raw' src`: build).
Specification: Verif/OFormRenum.lean (`renumForm`).
-/
namespace V8.OAuto
open V8.Brace V8.Dec
open V8.Form (count countAt dictGet calcOffset truthy)
open V8.OForm (TidyPages get2 fromEnd panelKind Src inside s q page panelData formOf tidyPagesB tidyPages_of pagesTable)

/-- **C69** (partial): an ordinary form that is taken apart and put together with the option auto_include is the form with its elements numbered
anew: in every panel the elements stand in the order of their pages and carry the numbers 2, 3, 4, ..., counted through all panels; every reference
to an element of the same panel names the new number of that element; the lists of what is tied to a panel and of the attributes shown by elements
are those of the new numbers; nothing else changes (`renumForm`).  For every number of pages, elements and attributes and every nesting of panels,
provided that
* every panel is in the usual form, its elements have different numbers, and the ends tied to a panel name one of its borders;
* all pages and elements have names, pages and elements have different paths, and in no path `includr` occurs without `_` behind it;
* the attributes have different names and different identifiers, none empty, and the form has a list of the attributes shown by elements. -/
theorem C69_renumbered_partial (ni depth : Nat) (raw raw' : List Val) (src : Src) (h : formOut ni depth raw = some (raw', src))
    (main : ∀ panel, get2 raw 1 2 = some (.list panel) → (∀ pr, get2 panel 1 1 = some (.list pr) → TidyPages pr) ∧
      ∀ er, panel[2]? = some (.list er) → TidyList er ∧ ∀ r ∈ allElems depth er, TidyElem r)
    (names : ∀ t ∈ OForm.allNames src.tree, t ≠ []) (paths : (src.data.map (·.1)).Nodup)
    (includr : ∀ e ∈ src.data, insideRef e.1 = inside e.1) (attrs : TidyAttrs src.attrs) (links : ∃ ls, get2 raw 2 3 = some (.list ls)) :
    ∃ out, renumForm (attrOf raw) depth raw = some out ∧ formIn depth raw' src = some out :=
  form_rt ni depth raw raw' src h main names paths attrs links includr

/-! ### a concrete form -/

/-- a border with two ends: what it is tied to and which border of that -/
def bord (x y : String × String) : Val := .list [s "9", .list [s "0", s x.1, s x.2], .list [s "0", s y.1, s y.2]]
def place (bs ls : List Val) (pg : String) : Val := .list ([s "8", s "1", s "2", s "3", s "4", s "5"] ++ bs ++ ls ++ [s pg, s "1", s "2", s "3", s "4"])
def none2 : Val := bord ("-1", "6") ("-1", "6")
def free : List Val := [none2, none2, none2, none2, none2, none2]
def l0 : List Val := [s "0", s "0", s "0", s "0"]
def fieldA (id name pg : String) (bs ls : List Val) : Val :=
  .list [s "381ed624-9217-4e63-85db-c4c3cb87daae", s id, s "data", place bs ls pg, .list [s "14", q name], s "0"]
def panelA (id name pg : String) (pr els : List Val) : Val :=
  .list [.str panelKind, s id, .list [s "0", .list pr], place free l0 pg, .list [s "14", q name], .list (.str (showNat els.length) :: els)]

/-- the data of a panel; the four lists of what is tied to it first -/
def panelWith (ls pages info : List Val) : List Val := [s "12", s "x"] ++ ls ++ (panelData pages info).drop 7
def info9 : List Val := [s "i1", s "i2", s "i3", s "i4", s "i5", s "i6", s "i7", s "i8", s "i9"]
def oneData (ls : List Val) : List Val := panelWith ls [page "One"] [s "j1", s "j2", s "j3", s "j4"]

/-- two pages; the field "Note" on the first page follows the field "Name" on the second, to which it is tied; a panel with two fields on a page of its
own, one tied to the other and to the panel.  "Name" is also tied to an element that does not exist. -/
def sampleAuto : List Val := formOf (panelWith l0 [page "Main", page "More"] info9)
  [fieldA "3" "Name" "1" [bord ("0", "0") ("-1", "6"), bord ("13", "1") ("99", "0"), none2, bord ("0", "3") ("-1", "6"), none2, bord ("0", "2") ("-1", "6")] l0,
   fieldA "13" "Note" "0" free [s "1", .list [s "0", s "3", s "1"], s "0", s "0", s "0"],
   panelA "40" "includr_Extra" "1" (oneData l0)
     [fieldA "7" "Name" "0" (bord ("6", "1") ("0", "2") :: free.drop 1) l0, fieldA "6" "Other" "0" free [s "0", s "1", .list [s "0", s "7", s "0"], s "0", s "0"]]]

/-- the same, numbered anew: "Note" is 2 and comes first, "Name" 3, the panel 4, its fields 5 and 6; what was tied to the missing element is tied to
"Name" itself; the lists of the panels are filled; the attribute stays with "Name" -/
def sampleNew : List Val :=
  ((formOf (panelWith [s "1", .list [s "9", s "3", s "0"], s "0", s "1", .list [s "9", s "3", s "1"], s "1", .list [s "9", s "3", s "3"]]
      [page "Main", page "More"] info9)
    [fieldA "2" "Note" "0" free [s "1", .list [s "0", s "3", s "1"], s "0", s "0", s "0"],
     fieldA "3" "Name" "1" [bord ("0", "0") ("-1", "6"), bord ("2", "1") ("3", "0"), none2, bord ("0", "3") ("-1", "6"), none2, bord ("0", "2") ("-1", "6")] l0,
     panelA "4" "includr_Extra" "1" (oneData [s "0", s "0", s "1", .list [s "9", s "5", s "0"], s "0"])
       [fieldA "5" "Name" "0" (bord ("6", "1") ("0", "2") :: free.drop 1) l0,
        fieldA "6" "Other" "0" free [s "0", s "1", .list [s "0", s "5", s "0"], s "0", s "0"]]]))

theorem sampleAuto_decodes : (formOut 4 5 sampleAuto).isSome = true := by decide +kernel

/-- what comes out of taking apart and putting together -/
def trip (raw : List Val) : Option (List Val) := (formOut 4 5 raw).bind (fun r => formIn 5 r.1 r.2)

/-! ### decidable forms of the hypotheses -/

def tidyListB (er : List Val) : Bool := (match countAt er 0 with
  | some n => decide (er.length ≤ n + 1)
  | none => true) && decide ((listsOf er).map (fun raw => raw[1]?)).Nodup
theorem tidyList_of (er : List Val) (h : tidyListB er = true) : TidyList er := by
  rw [tidyListB, Bool.and_eq_true] at h
  refine ⟨fun n hn => ?_, of_decide_eq_true h.2⟩
  have := h.1
  rw [hn] at this
  exact of_decide_eq_true this

def tidyElemB (raw : List Val) : Bool := (match placeOf raw with
  | some a => (hits [] a).isSome
  | none => true) &&
  (decide (raw[0]? ≠ some (.str panelKind)) ||
    ((match get2 raw 2 1 with | some (.list pr) => tidyPagesB pr | _ => true) && (match fromEnd raw 1 with | some (.list er) => tidyListB er | _ => true)))
theorem tidyElem_of (raw : List Val) (h : tidyElemB raw = true) : TidyElem raw := by
  rw [tidyElemB, Bool.and_eq_true, Bool.or_eq_true, Bool.and_eq_true] at h
  refine ⟨?_, ?_, ?_⟩
  · intro a ha
    have := h.1
    rw [ha] at this
    exact this
  · intro hk pr hp
    rcases h.2 with h2 | h2
    · exact absurd hk (of_decide_eq_true h2)
    · have := h2.1
      rw [hp] at this
      exact tidyPages_of _ this
  · intro hk er he
    rcases h.2 with h2 | h2
    · exact absurd hk (of_decide_eq_true h2)
    · have := h2.2
      rw [he] at this
      exact tidyList_of _ this

def tidyMainB (raw : List Val) : Bool := match get2 raw 1 2 with
  | some (.list panel) => (match get2 panel 1 1 with | some (.list pr) => tidyPagesB pr | _ => true) &&
    (match (panel[2]? : Option Val) with | some (.list er) => tidyListB er && (allElems 5 er).all tidyElemB | _ => true)
  | _ => true
theorem tidyMain_of (raw : List Val) (h : tidyMainB raw = true) : ∀ panel, get2 raw 1 2 = some (.list panel) →
    (∀ pr, get2 panel 1 1 = some (.list pr) → TidyPages pr) ∧
      ∀ er, panel[2]? = some (.list er) → TidyList er ∧ ∀ r ∈ allElems 5 er, TidyElem r := by
  intro panel hp
  rw [tidyMainB, hp] at h
  simp only [Bool.and_eq_true] at h
  refine ⟨fun pr hpr => ?_, fun er her => ?_⟩
  · have := h.1
    rw [hpr] at this
    exact tidyPages_of _ this
  · have := h.2
    rw [her] at this
    simp only [Bool.and_eq_true] at this
    exact ⟨tidyList_of _ this.1, fun r hr => tidyElem_of r (List.all_eq_true.mp this.2 r hr)⟩

def tidyAttrsB (attrs : Option (List V8.Form.Rec)) : Bool := match attrs with
  | none => true
  | some l => l.all (fun a => truthy a.id && decide (a.name ≠ [])) && decide (l.map (·.id)).Nodup && decide (l.map (·.name)).Nodup
theorem tidyAttrs_of (attrs : Option (List V8.Form.Rec)) (h : tidyAttrsB attrs = true) : TidyAttrs attrs := by
  have key : ∀ l, attrs = some l → (∀ a ∈ l, truthy a.id = true ∧ a.name ≠ []) ∧ (l.map (·.id)).Nodup ∧ (l.map (·.name)).Nodup := by
    intro l hl
    rw [hl, tidyAttrsB, Bool.and_eq_true, Bool.and_eq_true] at h
    refine ⟨fun a ha => ?_, of_decide_eq_true h.1.2, of_decide_eq_true h.2⟩
    have := List.all_eq_true.mp h.1.1 a ha
    rw [Bool.and_eq_true] at this
    exact ⟨this.1, of_decide_eq_true this.2⟩
  exact ⟨fun l hl a ha => ((key l hl).1 a ha).1, fun l hl => (key l hl).2.1, fun l hl a ha => ((key l hl).1 a ha).2, fun l hl => (key l hl).2.2⟩

set_option maxRecDepth 20000 in
/-- the hypotheses hold for the sample, and the result is the one expected -/
example : ∃ raw' src, formOut 4 5 sampleAuto = some (raw', src) ∧ formIn 5 raw' src = some sampleNew ∧ src.data.length = 10 := by
  obtain ⟨out, h1, h2⟩ := C69_renumbered_partial 4 5 sampleAuto ((formOut 4 5 sampleAuto).get sampleAuto_decodes).1
    ((formOut 4 5 sampleAuto).get sampleAuto_decodes).2 (Option.some_get sampleAuto_decodes).symm
    (tidyMain_of _ (by decide +kernel)) (by decide +kernel) (by decide +kernel)
    (by
      have : ((formOut 4 5 sampleAuto).get sampleAuto_decodes).2.data.all (fun e => decide (insideRef e.1 = inside e.1)) = true := by decide +kernel
      exact fun e he => of_decide_eq_true (List.all_eq_true.mp this e he))
    (tidyAttrs_of _ (by decide +kernel)) ⟨_, rfl⟩
  have h3 : renumForm (attrOf sampleAuto) 5 sampleAuto = some sampleNew := by decide +kernel
  rw [h3] at h1
  cases h1
  exact ⟨_, _, (Option.some_get sampleAuto_decodes).symm, h2, by decide +kernel⟩

set_option maxRecDepth 20000 in
/-- a second round changes nothing here -/
example : trip sampleNew = some sampleNew := by decide +kernel

/-! ### what goes wrong -/

/-- a panel on a page, with two fields, one tied to the other -/
def nested (name : String) : List Val := formOf (panelWith l0 [page "Main"] [s "i1", s "i2", s "i3", s "i4"])
  [panelA "2" name "0" (oneData l0) [fieldA "3" "Name" "0" free l0, fieldA "4" "Other" "0" (bord ("3", "1") ("-1", "6") :: free.drop 1) l0]]

set_option maxRecDepth 20000 in
/-- `includr` without `_` in the name of a panel: the form is taken apart, but the build fails (Panel.py:478 replaces another word than lines 90 and 437) -/
theorem C69_includr_neg : (trip (nested "Extra")).isSome = true ∧ (trip (nested "includr_Extra")).isSome = true ∧
    (formOut 4 5 (nested "includrExtra")).isSome = true ∧ trip (nested "includrExtra") = none := by
  decide +kernel

set_option maxRecDepth 20000 in
/-- a page without a name: the form is taken apart, but the build fails -/
theorem C69_page_without_name_neg :
    (formOut 4 5 (formOf (panelWith l0 [page ""] [s "i1", s "i2", s "i3", s "i4"]) [fieldA "2" "Name" "0" free l0])).isSome = true ∧
    trip (formOf (panelWith l0 [page ""] [s "i1", s "i2", s "i3", s "i4"]) [fieldA "2" "Name" "0" free l0]) = none := by
  decide +kernel

set_option maxRecDepth 20000 in
/-- an element tied to an element of another panel is tied to itself afterwards -/
theorem C69_other_panel_neg :
    trip (formOf (panelWith l0 [page "Main"] [s "i1", s "i2", s "i3", s "i4"])
      [fieldA "2" "Name" "0" free l0, panelA "3" "Extra" "0" (oneData l0) [fieldA "4" "Name" "0" (bord ("2", "1") ("-1", "6") :: free.drop 1) l0]]) =
    some (formOf (panelWith l0 [page "Main"] [s "i1", s "i2", s "i3", s "i4"])
      [fieldA "2" "Name" "0" free l0, panelA "3" "Extra" "0" (oneData l0) [fieldA "4" "Name" "0" (bord ("4", "1") ("-1", "6") :: free.drop 1) l0]]) := by
  decide +kernel

set_option maxRecDepth 20000 in
/-- a form without pages but with an element is not taken apart -/
theorem C69_no_pages_neg : formOut 4 5 (formOf (panelWith l0 [] []) [fieldA "2" "Name" "0" free l0]) = none := by decide +kernel

/-- with auto_include a form that cannot be taken apart is not left alone by the build, as FormCore.py:193-196 intends: the form that comes out has the
number of its elements set to 0 and the list of attributes shown by elements emptied, whatever elements and links it had -/
theorem C69_failed_form_emptied_neg (ni depth depth' : Nat) (raw out : List Val) (left : Option (List V8.Form.Rec)) (fails : formOut ni depth raw = none)
    (h : formIn depth' (takeApart ni depth raw left).1 (takeApart ni depth raw left).2 = some out) :
    ∃ panel er, get2 out 1 2 = some (.list panel) ∧ panel[2]? = some (.list (s "0" :: er)) ∧ get2 out 2 3 = some (.list [s "0"]) := by
  rw [takeApart, fails] at h
  simp only at h
  rw [formIn] at h
  simp only [Option.bind_eq_some_iff] at h
  obtain ⟨al, hal, al', _, panel, hp, pr, hpr, er, her, o, ho, h⟩ := h
  rw [panelIn] at ho
  simp only [Option.bind_eq_some_iff, List.map_nil, flat, List.flatMap_nil, numbered, Option.some.injEq, exists_eq_left', each, List.length_nil] at ho
  obtain ⟨pr1, _, ho⟩ := ho
  cases er with
  | nil => cases ho
  | cons e r =>
    replace ho := Option.some.inj ho
    subst ho
    by_cases hn : (get2 raw 2 3).isNone = true
    · rw [if_pos hn] at h; cases h
    · rw [if_neg hn] at h
      replace h := Option.some.inj h
      subst h
      have h0 : showNat 0 = ['0'] := by rw [showNat]; rfl
      have h12 : get2 (OForm.set2 raw 2 2 (.list al')) 1 2 = some (.list panel) := by
        rw [OForm.get2_set2_ne _ _ _ _ _ _ (by decide)]
        exact listOf_some _ _ hp
      obtain ⟨w, hw⟩ := Option.ne_none_iff_exists'.mp (fun e => hn (by rw [e]; rfl) : get2 raw 2 3 ≠ none)
      simp only [List.length_nil, List.map_nil, List.append_nil]
      generalize hP : OForm.set2 panel 1 1 _ = P
      refine ⟨P.set 2 (.list (.str (showNat 0) :: r)), r, ?_, ?_, ?_⟩
      · rw [OForm.get2_set2_ne _ _ _ _ _ _ (by decide), OForm.get2_set2 _ _ _ _ _ h12]
      · have hlen : 2 < P.length := by
          rw [← hP, OForm.set2_length]
          exact (List.getElem?_eq_some_iff.mp (listOf_some _ _ her)).1
        rw [List.getElem?_set_self hlen, h0]
        rfl
      · have h23 : ∃ w', get2 (OForm.set2 (OForm.set2 raw 2 2 (.list al')) 1 2 (.list (P.set 2 (.list (.str (showNat 0) :: r))))) 2 3 = some w' := by
          rw [OForm.get2_set2_ne _ _ _ _ _ _ (by decide)]
          rw [get2] at hw ⊢
          rw [OForm.set2]
          have hal' := listOf_some _ _ hal
          rw [get2] at hal'
          cases h2 : raw[2]? with
          | none => rw [h2] at hw; cases hw
          | some v =>
            rw [h2] at hw hal'
            have hl2 := (List.getElem?_eq_some_iff.mp h2).1
            cases v with
            | list l =>
              simp only at hw hal' ⊢
              rw [List.getElem?_set_self hl2]
              exact ⟨w, by rw [← hw]; exact List.getElem?_set_ne (by decide)⟩
            | str _ => cases hw
            | none => cases hw
        obtain ⟨w', hw'⟩ := h23
        rw [OForm.get2_set2 _ _ _ _ _ hw', h0]
        rfl

/-- a form with an element but without pages -/
def pageless : List Val := formOf (panelWith l0 [] []) [fieldA "2" "Name" "0" free l0]

set_option maxRecDepth 20000 in
/-- such a form: the build reports nothing, and the element is lost -/
theorem C69_failed_form_neg : formOut 4 5 pageless = none ∧
    (formIn 5 (takeApart 4 5 pageless (some [])).1 (takeApart 4 5 pageless (some [])).2).isSome = true ∧
    formIn 5 (takeApart 4 5 pageless (some [])).1 (takeApart 4 5 pageless (some [])).2 ≠ some pageless := by
  decide +kernel

/-! ### the lists of what is tied to the panel -/

/-- an end of a border tied to border `n` of the panel is entered in the list `n` of the panel, or in list 1 if `n` is above 3 -/
theorem side_of (n : Nat) : sideOf (n : Int) = some (if n ≤ 3 then n else 1) := by
  unfold sideOf
  by_cases h : n ≤ 3
  · rw [if_neg (by omega), if_pos (by omega), if_pos h, Int.toNat_natCast]
  · rw [if_pos (by omega), if_neg h]

/-- **C69, what is tied to the panel.**  If an end of border `b` of an element is tied to border `n` of the panel, the panel gets the entry of this element in its list `n`, with the number `b`; the numbers
above 3 count as 1.  The first end. -/
theorem C69_first_end_tied (id z' : Text) (b n : Nat) (a : Val) (r r' q : List Val) (hz : z' ≠ ['0']) (w w' : Val) :
    borderHits id b (.list (a :: .list (w :: .str ['0'] :: .str (showNat n) :: r) :: .list (w' :: .str z' :: r') :: q)) =
      some [(if n ≤ 3 then n else 1, .list [a, .str id, .str (showNat (if b ≤ 3 then b else 1))])] := by
  have hb : (if 3 < b then 1 else b) = if b ≤ 3 then b else 1 := by
    by_cases h : b ≤ 3
    · rw [if_neg (by omega), if_pos h]
    · rw [if_pos (by omega), if_neg h]
  rw [borderHits, hb, endHit, endHit, if_pos rfl, if_neg hz, panelSide, num_show, Option.bind_some, side_of]
  rfl

/-- the second end -/
theorem C69_second_end_tied (id z' : Text) (b n : Nat) (a : Val) (r r' q : List Val) (hz : z' ≠ ['0']) (w w' : Val) :
    borderHits id b (.list (a :: .list (w' :: .str z' :: r') :: .list (w :: .str ['0'] :: .str (showNat n) :: r) :: q)) =
      some [(if n ≤ 3 then n else 1, .list [a, .str id, .str (showNat (if b ≤ 3 then b else 1))])] := by
  have hb : (if 3 < b then 1 else b) = if b ≤ 3 then b else 1 := by
    by_cases h : b ≤ 3
    · rw [if_neg (by omega), if_pos h]
    · rw [if_pos (by omega), if_neg h]
  rw [borderHits, hb, endHit, endHit, if_pos rfl, if_neg hz, panelSide, num_show]
  simp only [Option.bind_some, side_of, Option.map_some, List.nil_append]

/-- border 5 of the element 7, tied to border 4 of the panel: both numbers become 1 -/
example : borderHits ['7'] 5 (.list [.str ['x'], .list [.str ['0'], .str ['0'], .str ['4']], .list [.str ['0'], .str "-1".toList]]) =
    some [(1, .list [.str ['x'], .str ['7'], .str ['1']])] := by
  have := C69_first_end_tied ['7'] "-1".toList 5 4 (.str ['x']) [] [] [] (by decide) (.str ['0']) (.str ['0'])
  have e4 : showNat 4 = ['4'] := by decide +kernel
  have e1 : showNat 1 = ['1'] := by decide +kernel
  rwa [if_neg (by decide), if_neg (by decide), e4, e1] at this

end V8.OAuto
