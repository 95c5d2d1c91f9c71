import Verif.OFormWhole
/-
C31 (the pages of a panel of an ordinary form), C53 (ordinary forms are put together as they were), C45 for ordinary forms.
Model: Verif/OForm.lean.

`pagesOut path raw` is what extraction makes of the data of a panel with its pages: the data that stay, the names of the pages, the entries for
`<form>.elem.json`; `pagesIn D path raw'` is what the build makes of them, `D` being the entries read from the file.  `formOut ni depth raw` and
`formIn depth raw' src` are the same for the whole form.
-/
namespace V8.OForm
open V8.Brace V8.Dec V8.Form
open V8.Module (strEncode strDecode)

/-- **C31** (partial): the pages of a panel that were taken out are put back as they were, for every number of pages and of descriptions, whatever
else stands in the panel and in the file, provided that
* nothing follows the last page in the list of pages;
* the descriptions that the counter promises are there; there are none when there are no pages, and at least four for every page but the first;
* the entries are found in the file as they were written (no two pages and elements with the same path). -/
theorem C31_pages_round_trip_partial (D : List (Text × Entry)) (path : Text) (raw raw' : List Val) (names : List Text)
    (es : List (Text × Entry)) (h : pagesOut path raw = some (raw', names, es))
    (tidy : ∀ off pr n m, calcOffset raw pagesTable 0 = some off → raw[off]? = some (.list pr) →
      countAt pr 1 = some n → countAt raw (off + 4) = some m →
      pr.length ≤ n + 2 ∧ off + 4 + m < raw.length ∧ (n = 0 → m = 0) ∧ 4 * (n - 1) ≤ m)
    (found : ∀ e ∈ es, dictGet D e.1 = some e.2) : pagesIn D path raw' = some raw :=
  pages_rt D path raw raw' names es h tidy found

/-- every page is written with its own data, under its own name, in the order of the panel -/
theorem C31_pages_named (path : Text) (raw raw' : List Val) (names : List Text) (es : List (Text × Entry))
    (h : pagesOut path raw = some (raw', names, es)) :
    ∃ off pr, calcOffset raw pagesTable 0 = some off ∧ raw[off]? = some (.list pr) ∧ countAt pr 1 = some names.length ∧
      ∀ i (hi : i < names.length), ∃ p info, pr[i + 2]? = some p ∧ nameAt p 6 = some names[i] ∧
        es[i]? = some (calcId path names[i] [], .page p info) := by
  rw [pagesOut] at h
  cases ho : calcOffset raw pagesTable 0 with
  | none => rw [ho] at h; cases h
  | some off =>
    rw [ho] at h
    simp only at h
    cases hr : raw[off]? with
    | none => rw [hr] at h; cases h
    | some v =>
      cases v with
      | none => rw [hr] at h; cases h
      | str _ => rw [hr] at h; cases h
      | list pr =>
        rw [hr] at h
        simp only at h
        cases hn : countAt pr 1 with
        | none => rw [hn] at h; cases h
        | some n =>
          cases hm : countAt raw (off + 4) with
          | none => rw [hn, hm] at h; cases h
          | some m =>
            rw [hn, hm] at h
            simp only at h
            cases hl : pagesLoop path (infoAt raw (off + 4) m n) 0 n (pr.drop 2) with
            | none => rw [hl] at h; cases h
            | some q =>
              obtain ⟨names', es'⟩ := q
              rw [hl] at h
              simp only at h
              by_cases hw : pagesWord ∈ names'
              · rw [if_pos hw] at h; cases h
              · rw [if_neg hw] at h
                cases h
                have key : ∀ (info : Nat → List Val) (n i : Nat) (l : List Val) (names : List Text) (es : List (Text × Entry)),
                    pagesLoop path info i n l = some (names, es) → names.length = n ∧ es.length = n ∧
                    ∀ j (hj : j < names.length), ∃ p info, l[j]? = some p ∧ nameAt p 6 = some names[j] ∧
                      es[j]? = some (calcId path names[j] [], Entry.page p info) := by
                  intro info n
                  induction n with
                  | zero =>
                    intro i l names es h
                    rw [pagesLoop] at h
                    cases h
                    exact ⟨rfl, rfl, fun j hj => absurd hj (Nat.not_lt_zero _)⟩
                  | succ n ih =>
                    intro i l names es h
                    cases l with
                    | nil => cases h
                    | cons p r =>
                      rw [pagesLoop] at h
                      cases h1 : idx p 0 with
                      | none => rw [h1] at h; cases h
                      | some v =>
                        cases h2 : nameAt p 6 with
                        | none => rw [h1, h2] at h; cases h
                        | some name =>
                          cases h3 : pagesLoop path info (i + 1) n r with
                          | none => rw [h1, h2, h3] at h; cases h
                          | some q =>
                            obtain ⟨ns, es'⟩ := q
                            rw [h1, h2, h3] at h
                            cases h
                            obtain ⟨k1, k2, k3⟩ := ih (i + 1) r ns es' h3
                            refine ⟨by rw [List.length_cons, k1], by rw [List.length_cons, k2], ?_⟩
                            intro j hj
                            cases j with
                            | zero => exact ⟨p, info i, rfl, h2, rfl⟩
                            | succ j =>
                              obtain ⟨p', i', a, b, c⟩ := k3 j (by rw [List.length_cons] at hj; omega)
                              exact ⟨p', i', a, b, c⟩
                obtain ⟨k1, k2, k3⟩ := key _ n 0 _ _ _ hl
                refine ⟨off, pr, rfl, hr, by rw [hn, k1], ?_⟩
                intro i hi
                obtain ⟨p, info, a, b, c⟩ := k3 i hi
                refine ⟨p, info, ?_, b, ?_⟩
                · rw [List.getElem?_drop] at a
                  rw [Nat.add_comm]
                  exact a
                · rw [List.getElem?_append_left (by omega)]
                  exact c

/-- **C53** (partial): taking an ordinary form apart and putting it together (without the option auto_include) gives the original form, for every
number of attributes, pages and elements and every nesting of panels, provided that every panel is in the usual form, all elements have names,
pages and elements have different paths and the identifiers of attributes are not empty. -/
theorem C53_ordinary_form_round_trip_partial (ni depth : Nat) (raw raw' : List Val) (src : Src)
    (h : formOut ni depth raw = some (raw', src))
    (main : ∀ panel, get2 raw 1 2 = some (.list panel) →
      (∀ pr, get2 panel 1 1 = some (.list pr) → TidyPages pr) ∧ (∀ er, panel[2]? = some (.list er) → TidyElems er))
    (inner : ∀ panel, get2 raw 1 2 = some (.list panel) → ∀ p ∈ innerPanels depth panel, TidyPanel p)
    (names : ∀ t ∈ allNames src.tree, t ≠ [])
    (paths : (src.data.map (·.1)).Nodup)
    (ids : ∀ l, src.attrs = some l → ∀ a ∈ l, truthy a.id = true) :
    formIn depth raw' src = some raw :=
  form_rt ni depth raw raw' src h ⟨fun p hp => ⟨(main p hp).1, (main p hp).2⟩, inner, names, paths, ids⟩

/-! ### a concrete form -/

def q (t : String) : Val := .str ('"' :: t.toList ++ ['"'])
def s (t : String) : Val := .str t.toList
def page (name : String) : Val := .list [s "3", s "a", s "b", s "c", s "d", s "e", q name, s "z"]
/-- the data of a panel with given pages and descriptions -/
def panelData (pages : List Val) (info : List Val) : List Val :=
  [s "12", s "x", s "0", s "1", s "anchor", s "0", s "0", s "0", s "0", s "p", s "q", s "r", .list (s "1" :: .str (showNat pages.length) :: pages), s "u", s "v", s "w",
    .str (showNat info.length)] ++ info ++ [s "end"]
def field (id name pg : String) : Val :=
  .list [s "381ed624-9217-4e63-85db-c4c3cb87daae", s id, s "data", .list [s "8", s pg, s "1", s "2", s "3", s "4"], .list [s "14", q name], s "0"]
def panelElem (id name pg : String) (pr els : List Val) : Val :=
  .list [.str panelKind, s id, .list [s "0", .list pr], .list [s "8", s pg, s "1", s "2", s "3", s "4"], .list [s "14", q name], .list (.str (showNat els.length) :: els)]
def attr (id name : String) : Val := .list [.list [s id], s "0", s "0", s "1", q name]
def link (e a : String) : Val := .list [s e, .list [s "1", .list [s a]]]

def formOf (pr els : List Val) : List Val :=
  [s "27", .list [s "18", s "t", .list [.str panelKind, .list [s "1", .list pr], .list (.str (showNat els.length) :: els)]],
    .list [s "1", s "2", .list [s "2", attr "11" "Object", attr "12" "Note"], .list [s "1", link "3" "12"]]]

/-- two pages, a field on each, a panel with a page of its own on the second -/
def sampleForm : List Val := formOf (panelData [page "Main", page "More"] [s "i1", s "i2", s "i3", s "i4", s "i5", s "i6", s "i7", s "i8", s "i9"])
  [field "2" "Name" "0", field "3" "Note" "1",
   panelElem "4" "includr_Extra" "1" (panelData [page "One"] [s "j1", s "j2", s "j3", s "j4"]) [field "5" "Name" "0"]]

theorem sampleForm_decodes : (formOut 4 5 sampleForm).isSome = true := by decide +kernel

/-- decidable form of the hypotheses of C53 -/
def tidyPagesB (raw : List Val) : Bool := match calcOffset raw pagesTable 0 with
  | none => true
  | some off => match (raw[off]? : Option Val) with
    | some (.list pr) => match countAt pr 1, countAt raw (off + 4) with
      | some n, some m => decide (pr.length ≤ n + 2 ∧ off + 4 + m < raw.length ∧ (n = 0 → m = 0) ∧ 4 * (n - 1) ≤ m)
      | _, _ => true
    | _ => true
theorem tidyPages_of (raw : List Val) (h : tidyPagesB raw = true) : TidyPages raw := by
  intro off pr n m h1 h2 h3 h4
  rw [tidyPagesB, h1] at h
  simp only at h
  rw [h2] at h
  simp only at h
  rw [h3, h4] at h
  exact of_decide_eq_true h

def tidyElemsB (er : List Val) : Bool := match countAt er 0 with
  | some (n + 1) => decide (er.length ≤ n + 2)
  | _ => true
theorem tidyElems_of (er : List Val) (h : tidyElemsB er = true) : TidyElems er := by
  intro n hn
  rw [tidyElemsB, hn] at h
  simpa using h

def tidyPanelB (p : List Val) : Bool := decide (3 < p.length) &&
  (match get2 p 2 1 with | some (.list pr) => tidyPagesB pr | _ => true) &&
  (match fromEnd p 1 with | some (.list er) => tidyElemsB er | _ => true)
theorem tidyPanel_of (p : List Val) (h : tidyPanelB p = true) : TidyPanel p := by
  rw [tidyPanelB, Bool.and_eq_true, Bool.and_eq_true] at h
  refine ⟨by simpa using h.1.1, ?_, ?_⟩
  · intro pr hp
    have := h.1.2
    rw [hp] at this
    exact tidyPages_of _ this
  · intro er he
    have := h.2
    rw [he] at this
    exact tidyElems_of _ this

/-- the hypotheses hold for the sample -/
example : ∃ raw' src, formOut 4 5 sampleForm = some (raw', src) ∧ formIn 5 raw' src = some sampleForm ∧ src.tree.length = 3 ∧ src.data.length = 9 := by
  refine ⟨((formOut 4 5 sampleForm).get sampleForm_decodes).1, ((formOut 4 5 sampleForm).get sampleForm_decodes).2, (Option.some_get _).symm, ?_, by decide +kernel, by decide +kernel⟩
  apply C53_ordinary_form_round_trip_partial 4 5 sampleForm _ _ (Option.some_get sampleForm_decodes).symm
  · intro panel hp
    have e : get2 sampleForm 1 2 = some (.list [.str panelKind, .list [s "1", .list (panelData [page "Main", page "More"]
        [s "i1", s "i2", s "i3", s "i4", s "i5", s "i6", s "i7", s "i8", s "i9"])], .list [s "3", field "2" "Name" "0", field "3" "Note" "1",
        panelElem "4" "includr_Extra" "1" (panelData [page "One"] [s "j1", s "j2", s "j3", s "j4"]) [field "5" "Name" "0"]]]) := by decide +kernel
    rw [e] at hp
    cases hp
    refine ⟨?_, ?_⟩
    · intro pr hpr
      cases hpr
      exact tidyPages_of _ (by decide +kernel)
    · intro er her
      cases her
      exact tidyElems_of _ (by decide +kernel)
  · intro panel hp p hm
    have e : ∀ panel, get2 sampleForm 1 2 = some (.list panel) → (innerPanels 5 panel).all tidyPanelB = true := by
      have : (match get2 sampleForm 1 2 with | some (.list panel) => (innerPanels 5 panel).all tidyPanelB | _ => true) = true := by decide +kernel
      intro panel h
      rw [h] at this
      exact this
    exact tidyPanel_of p (List.all_eq_true.mp (e panel hp) p hm)
  · decide +kernel
  · decide +kernel
  · have : ((((formOut 4 5 sampleForm).get sampleForm_decodes).2.attrs.getD []).all (fun a => truthy a.id)) = true := by decide +kernel
    have key : ∀ src : Src, ((src.attrs.getD []).all (fun a => truthy a.id)) = true → ∀ l, src.attrs = some l → ∀ a ∈ l, truthy a.id = true := by
      intro src h l hl a ha
      rw [hl] at h
      exact List.all_eq_true.mp h a ha
    exact key _ this

/-- the data of a panel with two pages and nine descriptions -/
def samplePages : List Val := panelData [page "Main", page "More"] [s "1", s "2", s "3", s "4", s "5", s "6", s "7", s "8", s "9"]
theorem samplePages_decode : (pagesOut ['P'] samplePages).isSome = true := by decide +kernel

/-- the pages alone -/
example : ∃ raw' names es, pagesOut ['P'] samplePages = some (raw', names, es) ∧
    names = ["Main".toList, "More".toList] ∧ pagesIn es ['P'] raw' = some samplePages := by
  refine ⟨((pagesOut ['P'] samplePages).get samplePages_decode).1, ((pagesOut ['P'] samplePages).get samplePages_decode).2.1,
    ((pagesOut ['P'] samplePages).get samplePages_decode).2.2, (Option.some_get _).symm, by decide +kernel, ?_⟩
  apply C31_pages_round_trip_partial _ _ _ _ _ _ (Option.some_get samplePages_decode).symm
  · exact tidyPages_of _ (by decide +kernel)
  · have hn : ((((pagesOut ['P'] samplePages).get samplePages_decode).2.2).map (·.1)).Nodup := by decide +kernel
    exact fun e he => dictGet_mem _ hn e he

/-! ### what is lost -/

/-- what comes out of taking apart and putting together -/
def roundTrip (raw : List Val) : Option (List Val) := (formOut 4 5 raw).bind (fun r => formIn 5 r.1 r.2)
def pagesTrip (raw : List Val) : Option (List Val) := (pagesOut [] raw).bind (fun r => pagesIn r.2.2 [] r.1)

set_option maxRecDepth 20000 in
/-- the first entry after the pages of a panel is lost (Panel.py:291 deletes one entry too many) -/
theorem C31_entry_after_pages_lost_neg :
    pagesTrip ((panelData [page "Main"] [s "1", s "2", s "3", s "4"]).set 12 (.list [s "1", s "1", page "Main", s "lost", s "kept"])) =
      some ((panelData [page "Main"] [s "1", s "2", s "3", s "4"]).set 12 (.list [s "1", s "1", page "Main", s "kept"])) := by
  decide +kernel

set_option maxRecDepth 20000 in
/-- the descriptions of a panel without pages are lost -/
theorem C31_descriptions_without_pages_lost_neg : pagesTrip (panelData [] [s "1", s "2"]) = some (panelData [] []) := by
  decide +kernel

set_option maxRecDepth 20000 in
/-- a page called `-pages-` cannot be taken out -/
theorem C31_page_called_pages_fails_neg : (pagesOut [] (panelData [page "-pages-"] [s "1", s "2", s "3", s "4"])).isNone = true := by
  decide +kernel

set_option maxRecDepth 20000 in
/-- two pages with the same name become two copies of the second one -/
theorem C31_same_page_name_neg :
    pagesTrip (panelData [.list [s "3", s "a", s "b", s "c", s "d", s "e", q "P", s "first"], .list [s "3", s "a", s "b", s "c", s "d", s "e", q "P", s "second"]]
        [s "1", s "2", s "3", s "4", s "5", s "6", s "7", s "8"]) =
      some (panelData [.list [s "3", s "a", s "b", s "c", s "d", s "e", q "P", s "second"], .list [s "3", s "a", s "b", s "c", s "d", s "e", q "P", s "second"]]
        [s "5", s "6", s "7", s "8", s "5", s "6", s "7", s "8"]) := by
  decide +kernel

set_option maxRecDepth 20000 in
/-- an element without a name: the form is taken apart but cannot be built when the element stands on a page -/
theorem C53_element_without_name_neg :
    (formOut 4 5 (formOf (panelData [page "Main"] [s "1", s "2", s "3", s "4"]) [field "2" "" "0"])).isSome = true ∧
    roundTrip (formOf (panelData [page "Main"] [s "1", s "2", s "3", s "4"]) [field "2" "" "0"]) = none := by
  constructor <;> decide +kernel

set_option maxRecDepth 20000 in
/-- two elements with the same name on one page become two copies of the second one -/
theorem C53_same_element_name_neg :
    roundTrip (formOf (panelData [page "Main"] [s "1", s "2", s "3", s "4"]) [field "2" "Name" "0", field "3" "Name" "0"]) =
      some (formOf (panelData [page "Main"] [s "1", s "2", s "3", s "4"]) [field "3" "Name" "0", field "3" "Name" "0"]) := by
  decide +kernel

set_option maxRecDepth 20000 in
/-- an element called like a page of a nested panel takes its place in the file: here a field `A/B` of the panel of the form on page `Main` and page `B` of panel `A`
on page `Main`: the form does not come back -/
theorem C53_element_hides_page_neg :
    (roundTrip (formOf (panelData [page "Main"] [s "1", s "2", s "3", s "4"])
      [panelElem "4" "A" "0" (panelData [page "B"] [s "1", s "2", s "3", s "4"]) [], field "5" "A/B" "0"])) ≠
    some (formOf (panelData [page "Main"] [s "1", s "2", s "3", s "4"])
      [panelElem "4" "A" "0" (panelData [page "B"] [s "1", s "2", s "3", s "4"]) [], field "5" "A/B" "0"]) := by
  decide +kernel

set_option maxRecDepth 20000 in
/-- what follows the elements of a panel comes before them after the round trip -/
theorem C53_entries_after_elements_moved_neg :
    roundTrip [s "27", .list [s "18", s "t", .list [.str panelKind, .list [s "1", .list (panelData [] [])], .list [s "1", field "2" "Name" "0", s "tail"]]],
        .list [s "1", s "2", .list [s "0"], .list [s "0"]]] =
      some [s "27", .list [s "18", s "t", .list [.str panelKind, .list [s "1", .list (panelData [] [])], .list [s "1", s "tail", field "2" "Name" "0"]]],
        .list [s "1", s "2", .list [s "0"], .list [s "0"]]] := by
  decide +kernel

/-! ### C45 -/

/-- **C45**, ordinary forms: what is written when a form cannot be taken apart is the form as it was read ... -/
theorem C45_failed_ordinary_form_kept (ni depth : Nat) (raw : List Val) (left : Option (List Rec)) (h : formOut ni depth raw = none) :
    (takeApart ni depth raw left).1 = raw := by
  rw [takeApart, h]

/-- ... but no form that could not be taken apart can ever be built: the build looks for the list of the pages in the sources that were left behind,
and it is not there.  (Whatever the form, whatever made the extraction fail, whatever attributes it left behind.) -/
theorem C45_failed_ordinary_form_never_builds_neg (ni depth depth' : Nat) (raw : List Val) (left : Option (List Rec)) (h : formOut ni depth raw = none) :
    formIn depth' (takeApart ni depth raw left).1 (takeApart ni depth raw left).2 = none := by
  have hp : ∀ path pr, pagesIn [] path pr = none := by
    intro path pr
    rw [pagesIn]
    cases calcOffset pr pagesTable 0 with
    | none => rfl
    | some off =>
      simp only
      cases pr[off]? with
      | none => rfl
      | some v =>
        cases v with
        | none => rfl
        | str _ => rfl
        | list l => cases l <;> rfl
  have hm : ∀ N tree panel, mainIn N [] depth' tree panel = none := by
    intro N tree panel
    rw [mainIn]
    cases get2 panel 1 1 with
    | none => rfl
    | some v =>
      cases v with
      | none => rfl
      | str _ => rfl
      | list pr => simp only; rw [hp]
  rw [takeApart, h]
  simp only
  rw [formIn]
  cases get2 raw 2 2 with
  | none => rfl
  | some v =>
    cases v with
    | none => rfl
    | str _ => rfl
    | list al =>
      simp only
      cases attrsIn left al with
      | none => rfl
      | some al' =>
        simp only
        cases get2 (set2 raw 2 2 (.list al')) 1 2 with
        | none => rfl
        | some v =>
          cases v with
          | none => rfl
          | str _ => rfl
          | list panel => simp only; rw [hm]

set_option maxRecDepth 20000 in
/-- such forms exist: an element of a kind the program does not know, in a form that is otherwise in order -/
theorem C45_unknown_kind_fails : formOut 4 5 (formOf (panelData [page "Main"] [s "1", s "2", s "3", s "4"])
    [.list [s "00000000-0000-0000-0000-000000000000", s "2", s "data", .list [s "8", s "0", s "1", s "2", s "3", s "4"], .list [s "14", q "Name"], s "0"]]) = none := by
  decide +kernel

end V8.OForm
