import Verif.OFormAutoPanel
/-
The elements of an ordinary form with the option auto_include, nested panels included.
-/
namespace V8.OAuto
open V8.Brace V8.Dec
open V8.Form (count countAt dictGet marker nonEmpty calcOffset truthy Rec countAt_congr countAt_some idx nameAt dictGet_mem dictGet_some hashable seq)
open V8.OForm hiding formOut formIn elemOut elemIn elemsOut elemsIn elemsLoop

/-! ### the loop over the elements -/

theorem isPanel_iff (u : Text) (k : Bool) (h : isPanel u = some k) : k = true ↔ u = panelKind := by
  rw [isPanel] at h
  by_cases hu : u = panelKind
  · rw [if_pos hu] at h
    cases h
    exact ⟨fun _ => hu, fun _ => rfl⟩
  · rw [if_neg hu] at h
    by_cases h2 : u ∈ otherKinds
    · rw [if_pos h2] at h
      cases h
      exact ⟨(fun e => by cases e), fun e => absurd e hu⟩
    · rw [if_neg h2] at h; cases h

theorem elemsLoop_pairs (f : Bool → List Val → Option Item) : ∀ (n : Nat) (l : List Val) (its : List Item), elemsLoop f n l = some its →
    ∃ ps : List (List Val × Item), l.take n = ps.map (fun p => .list p.1) ∧ its = ps.map (·.2) ∧
      ∀ p ∈ ps, ∃ k, f k p.1 = some p.2 ∧ (k = true ↔ p.1[0]? = some (.str panelKind))
  | 0, l, its, h => by
    rw [elemsLoop] at h
    cases h
    exact ⟨[], by rw [List.take_zero]; rfl, rfl, fun p hp => absurd hp List.not_mem_nil⟩
  | n + 1, .list (.str u :: raw) :: rest, its, h => by
    rw [elemsLoop] at h
    simp only [Option.bind_eq_some_iff, Option.map_eq_some_iff] at h
    obtain ⟨k, hk, it, hit, its2, hl, rfl⟩ := h
    obtain ⟨ps, h1, h2, h3⟩ := elemsLoop_pairs f n rest its2 hl
    refine ⟨(.str u :: raw, it) :: ps, by rw [List.take_succ_cons, h1]; rfl, by rw [h2]; rfl, ?_⟩
    intro p hp
    rcases List.mem_cons.mp hp with hp | hp
    · subst hp
      refine ⟨k, hit, ?_⟩
      rw [isPanel_iff u k hk]
      show u = panelKind ↔ some (Val.str u) = some (.str panelKind)
      constructor
      · intro e; rw [e]
      · intro e; injection e with e; injection e
    · exact h3 p hp
  | n + 1, [], its, h => by cases h
  | n + 1, .none :: _, its, h => by cases h
  | n + 1, .str _ :: _, its, h => by cases h
  | n + 1, .list [] :: _, its, h => by cases h
  | n + 1, .list (.none :: _) :: _, its, h => by cases h
  | n + 1, .list (.list _ :: _) :: _, its, h => by cases h

theorem listsOf_map {α : Type} (g : α → List Val) : ∀ (l : List α), listsOf (l.map (fun p => Val.list (g p))) = l.map g
  | [] => rfl
  | x :: r => by
    have := listsOf_map g r
    rw [listsOf] at this ⊢
    rw [List.map_cons, List.filterMap_cons, this]
    rfl

theorem listsOf_mem (l : List Val) (raw : List Val) : raw ∈ listsOf l ↔ Val.list raw ∈ l := by
  rw [listsOf, List.mem_filterMap]
  constructor
  · rintro ⟨v, hv, h⟩
    cases v with
    | none => cases h
    | str _ => cases h
    | list x => cases h; exact hv
  · intro h
    exact ⟨_, h, rfl⟩

/-! ### names -/

theorem allNames_mem (n : Node) (t : Text) (ht : t ∈ OForm.allNames [n]) : ∀ (l : List Node), n ∈ l → t ∈ OForm.allNames l
  | [], h => absurd h List.not_mem_nil
  | .mk a b c d :: r, h => by
    rw [OForm.allNames]
    rcases List.mem_cons.mp h with h | h
    · subst h
      rw [OForm.allNames, OForm.allNames, List.append_nil] at ht
      rcases List.mem_cons.mp ht with ht | ht
      · rw [ht]; exact List.mem_cons_self
      · exact List.mem_cons_of_mem _ (List.mem_append_left _ ht)
    · exact List.mem_cons_of_mem _ (List.mem_append_right _ (allNames_mem n t ht r h))

theorem names_of_tree (names : List Text) (its : List Item) (h : ∀ t ∈ OForm.allNames (treeOf names its), t ≠ []) : ∀ t ∈ names, t ≠ [] := by
  intro t ht
  obtain ⟨i, hi⟩ := List.getElem?_of_mem ht
  have hlt : i < names.length := (List.getElem?_eq_some_iff.mp hi).1
  apply h
  apply allNames_mem (.mk (names[i]?.getD []) pageLabel [] ((its.filter (fun it => decide (it.page = i))).map (·.node)))
  · rw [OForm.allNames, hi]
    exact List.mem_cons_self
  · rw [treeOf]
    exact List.mem_map.mpr ⟨i, List.mem_range.mpr hlt, rfl⟩

theorem names_of_item (names : List Text) (its : List Item) (h : ∀ t ∈ OForm.allNames (treeOf names its), t ≠ []) (it : Item) (hi : it ∈ its)
    (hlt : it.page < names.length) : ∀ t ∈ OForm.allNames [it.node], t ≠ [] := by
  intro t ht
  apply h
  apply allNames_mem (.mk (names[it.page]?.getD []) pageLabel [] ((its.filter (fun x => decide (x.page = it.page))).map (·.node)))
  · rw [OForm.allNames]
    refine List.mem_cons_of_mem _ (List.mem_append_left _ ?_)
    exact allNames_mem it.node t ht _ (List.mem_map.mpr ⟨it, List.mem_filter.mpr ⟨hi, by simp⟩, rfl⟩)
  · rw [treeOf]
    exact List.mem_map.mpr ⟨it.page, List.mem_range.mpr hlt, rfl⟩

/-! ### all elements -/

theorem allElems_sub (d : Nat) (er : List Val) (raw r : List Val) (h : Val.list raw ∈ er) (hr : r ∈ allElems d [.list raw]) : r ∈ allElems d er := by
  cases d with
  | zero => exact absurd hr List.not_mem_nil
  | succ d =>
    rw [allElems, List.mem_flatMap] at hr ⊢
    obtain ⟨x, hx, h2⟩ := hr
    have : x = raw := by
      rw [listsOf_mem] at hx
      have := List.mem_singleton.mp hx
      injection this
    subst this
    exact ⟨x, (listsOf_mem _ _).mpr h, h2⟩

theorem allElems_self (d : Nat) (raw : List Val) : raw ∈ allElems (d + 1) [.list raw] := by
  rw [allElems, List.mem_flatMap]
  exact ⟨raw, (listsOf_mem _ _).mpr List.mem_cons_self, List.mem_cons_self⟩

theorem allElems_inner (d : Nat) (raw er r : List Val) (hk : raw[0]? = some (.str panelKind)) (he : fromEnd raw 1 = some (.list er)) (hr : r ∈ allElems d er) :
    r ∈ allElems (d + 1) [.list raw] := by
  rw [allElems, List.mem_flatMap]
  refine ⟨raw, (listsOf_mem _ _).mpr List.mem_cons_self, List.mem_cons_of_mem _ ?_⟩
  rw [if_pos hk, he]
  exact hr

/-! ### what extraction makes of an element -/

theorem listOf_some (v : Option Val) (l : List Val) (h : listOf v = some l) : v = some (.list l) := by
  cases v with
  | none => cases h
  | some x =>
    cases x with
    | none => cases h
    | str _ => cases h
    | list _ => cases h; rfl

theorem fromEnd_one (raw : List Val) (v : Val) (h : fromEnd raw 1 = some v) : 1 ≤ raw.length ∧ raw[raw.length - 1]? = some v := by
  rw [fromEnd] at h
  by_cases hc : 1 ≤ raw.length
  · rw [if_pos hc] at h; exact ⟨hc, h⟩
  · rw [if_neg hc] at h; cases h

/-- a panel as it is after extraction keeps its place -/
theorem place_kept (raw a b : List Val) (h : 6 ≤ raw.length) :
    placeOf ((set2 raw 2 1 (.list a)).set (raw.length - 1) (.list b)) = placeOf raw := by
  rw [placeOf, placeOf, fromEnd, fromEnd, List.length_set, set2_length, if_pos (by omega), if_pos (by omega),
    List.getElem?_set_ne (by omega), set2_ne _ _ _ _ _ (by omega)]

theorem elemOut_head (P : List (Val × Text)) (depth : Nat) (path : Text) (names : List Text) (k : Bool) (raw : List Val) (it : Item)
    (h : elemOut P depth path names k raw = some it) :
    ∃ name page, headOf names raw = some (name, page, it.id) ∧ pageIndex path names page = some it.page ∧ it.key = calcId path page name ∧
      nodeName it.node = name ∧ placeOf it.raw = placeOf raw ∧ 0 < depth := by
  cases depth with
  | zero => cases h
  | succ depth =>
    rw [elemOut] at h
    simp only [Option.bind_eq_some_iff] at h
    obtain ⟨⟨name, page, idv⟩, hh, i, hi, h⟩ := h
    by_cases hk : k = false
    · rw [if_pos hk] at h
      cases h
      exact ⟨name, page, hh, hi, rfl, rfl, rfl, by omega⟩
    · rw [if_neg hk] at h
      by_cases hl : raw.length < 6
      · rw [if_pos hl] at h; cases h
      · rw [if_neg hl] at h
        simp only [Option.bind_eq_some_iff, Option.map_eq_some_iff] at h
        obtain ⟨pr, _, er, _, o, _, rfl⟩ := h
        exact ⟨name, page, hh, hi, rfl, rfl, place_kept raw _ _ (by omega), by omega⟩

/-! ### the attribute an element shows -/

/-- the identifier, if it is a string that is not empty -/
def textOf : Option Val → Option Text
  | some (.str (c :: t)) => some (c :: t)
  | _ => none

/-- by the two tables of the program -/
def shown (P : List (Val × Text)) (N : List (Text × Val)) (v : Val) : Option Text :=
  (nonEmpty (dictGet P v)).bind (fun p => textOf (dictGet N p))

theorem link_eq (P : List (Val × Text)) (N : List (Text × Val)) (hP : ∀ e ∈ P, ∀ p, nonEmpty (some e.2) = some p → (textOf (dictGet N p)).isSome = true)
    (v : Val) (id : Text) : linkOf N id (nonEmpty (dictGet P v)) = some ((shown P N v).toList.map (fun a => (id, a))) := by
  rw [shown]
  cases hd : dictGet P v with
  | none => rfl
  | some t =>
    have h := hP _ (dictGet_some P _ _ hd)
    simp only at h
    cases hn : nonEmpty (some t) with
    | none => rfl
    | some p =>
      have h := h p hn
      rw [linkOf, Option.bind_some]
      cases hN : dictGet N p with
      | none => rw [hN] at h; cases h
      | some w =>
        rw [hN] at h
        match w, h with
        | .str (c :: t), _ => rfl

/-! ### entries of a panel -/

theorem hashable_list (l : List Val) (v : Val) (h : hashable v = true) : v ≠ .list l := by
  intro e
  rw [e] at h
  cases h

theorem pageIndex_low (path : Text) (names : List Text) (page : Text) (i : Nat) (h : pageIndex path names page = some i) : i < names.length := by
  rw [pageIndex] at h
  have := List.mem_of_find?_eq_some h
  rw [List.mem_reverse, List.mem_range] at this
  exact this

end V8.OAuto
