import Verif.OFormFixPanel
/-
Numbering anew what has been numbered anew changes nothing: the whole form.
-/
namespace V8.OAuto
open V8.Brace V8.Dec
open V8.Form (count countAt dictGet calcOffset countAt_some dictGet_some idx)
open V8.OForm (fromEnd get2 set2 pagesTable panelKind get2_set2 set2_length set2_ne set2_set get2_set set2_set2 dictGet_key get2_set2_ne set2_comm)

theorem set2_same (raw : List Val) (i j : Nat) (v : Val) (h : get2 raw i j = some v) : set2 raw i j v = raw := by
  rw [get2] at h
  rw [set2]
  cases hr : raw[i]? with
  | none => rfl
  | some x =>
    cases x with
    | none => rfl
    | str _ => rfl
    | list l =>
      rw [hr] at h
      simp only at h ⊢
      rw [Form.set_same l j v h, Form.set_same raw i _ hr]

/-- an element numbered twice -/
theorem elem_fix (A : Val → Option Text) : ∀ d, ElemFix A d
  | 0 => fun _ _ _ _ _ h => by cases h
  | d + 1 => by
    intro last raw x m s h hA
    have hap := hA raw (allElems_self d raw)
    have h5 := hap.size
    rw [renumElem, Option.bind_eq_some_iff] at h
    obtain ⟨old, hold, h⟩ := h
    simp only at h
    have hlink : ∀ (S : List (Text × Text)) (m : Nat), last < m → InRange S (last + 1) m → ∀ A', Agree A' ((A old).toList.map (fun a => (showNat (last + 1), a)) ++ S) last m →
        A' (.str (showNat (last + 1))) = A old := by
      intro S m hm hS A' hAg
      rw [hAg (last + 1) (by omega) (by omega), dictGet_append, out_of_range S _ _ _ hS (.inl (Nat.le_refl _)), Option.none_or]
      cases A old with
      | none => rfl
      | some a =>
        show dictGet [(showNat (last + 1), a)] (showNat (last + 1)) = some a
        rw [dictGet]
        show (List.find? (fun e => decide (e.1 = showNat (last + 1))) [(showNat (last + 1), a)]).map (·.2) = some a
        rw [List.find?_cons_of_pos (by exact decide_eq_true rfl)]
        rfl
    have hfrom : ∀ p ∈ (A old).toList.map (fun a => (showNat (last + 1), a)), (∃ o, A o = some p.2) ∧ p.1 = showNat (last + 1) := by
      intro p hp
      obtain ⟨a, ha, rfl⟩ := List.mem_map.mp hp
      exact ⟨⟨old, by cases hx : A old with
        | none => rw [hx] at ha; cases ha
        | some b => rw [hx] at ha; simp at ha; rw [ha]⟩, rfl⟩
    by_cases hk : raw[0]? ≠ some (.str panelKind)
    · rw [if_pos hk] at h
      simp only [Option.some.injEq, Prod.mk.injEq] at h
      obtain ⟨rfl, rfl, rfl⟩ := h
      refine ⟨by omega, ?_, fun p hp => (hfrom p hp).1, h5, by rw [List.length_set], ?_, ?_, ?_⟩
      · intro p hp
        exact ⟨last + 1, by omega, Nat.le_refl _, (hfrom p hp).2⟩
      · exact List.getElem?_set_self (by omega)
      · rw [placeOf, placeOf, fromEnd, fromEnd, List.length_set, List.getElem?_set_ne (by omega)]
      · intro A' hAg b
        have hL := hlink [] (last + 1) (by omega) (fun p hp => by cases hp) A' (by rw [List.append_nil]; exact hAg)
        have e1 : (setPlace (raw.set 1 (.str (showNat (last + 1)))) b)[1]? = some (.str (showNat (last + 1))) := by
          rw [setPlace, List.length_set, List.getElem?_set_ne (by omega)]
          exact List.getElem?_set_self (by omega)
        have e0 : (setPlace (raw.set 1 (.str (showNat (last + 1)))) b)[0]? = raw[0]? := by
          rw [setPlace, List.length_set, List.getElem?_set_ne (by omega), List.getElem?_set_ne (by omega)]
        rw [renumElem, e1, Option.bind_some]
        simp only
        rw [e0, if_pos hk, hL, Form.set_same _ _ _ e1]
    · rw [if_neg hk] at h
      have hk' : raw[0]? = some (.str panelKind) := by simpa using hk
      have h6 := hap.panel hk'
      simp only [Option.bind_eq_some_iff, Option.map_eq_some_iff] at h
      obtain ⟨pr, hpr, er, her, ⟨pr2, er2, m', s'⟩, hp, heq⟩ := h
      simp only [Prod.mk.injEq] at heq
      obtain ⟨rfl, rfl, rfl⟩ := heq
      have hpr := listOf_some _ _ hpr
      have her := listOf_some _ _ her
      obtain ⟨p1, p2, p3, p4⟩ := panel_fix A d (elem_fix A d) (last + 1) pr er pr2 er2 m' s' hp
        (fun r hr => hA r (allElems_inner d raw er r hk' her hr))
      have hlast := fromEnd_one raw _ her
      obtain ⟨l2, hl2⟩ := get2_at raw 2 1 _ hpr
      generalize hX : (set2 (raw.set 1 (.str (showNat (last + 1)))) 2 1 (.list pr2)).set (raw.length - 1) (.list er2) = X
      have xlen : X.length = raw.length := by rw [← hX, List.length_set, set2_length, List.length_set]
      have x1 : X[1]? = some (.str (showNat (last + 1))) := by
        rw [← hX, List.getElem?_set_ne (by omega), set2_ne _ _ _ _ _ (by omega)]
        exact List.getElem?_set_self (by omega)
      have x0 : X[0]? = raw[0]? := by
        rw [← hX, List.getElem?_set_ne (by omega), set2_ne _ _ _ _ _ (by omega), List.getElem?_set_ne (by omega)]
      have x21 : get2 X 2 1 = some (.list pr2) := by
        rw [← hX, get2_set _ _ _ _ _ (by omega)]
        apply get2_set2 _ 2 1 (.list pr)
        rw [get2_set _ _ _ _ _ (by omega)]
        exact hpr
      have xe : X[X.length - 1]? = some (.list er2) := by
        rw [xlen, ← hX]
        apply List.getElem?_set_self
        rw [set2_length, List.length_set]
        omega
      refine ⟨by omega, ?_, ?_, h5, xlen, x1, ?_, ?_⟩
      · apply range_append _ _ last (last + 1) m' _ p2 (by omega) p1
        intro p hp
        exact ⟨last + 1, by omega, Nat.le_refl _, (hfrom p hp).2⟩
      · intro p hp
        rcases List.mem_append.mp hp with hp | hp
        · exact (hfrom p hp).1
        · exact p3 p hp
      · rw [placeOf, placeOf, fromEnd, fromEnd, xlen, ← hX, List.getElem?_set_ne (by omega), set2_ne _ _ _ _ _ (by omega),
          List.getElem?_set_ne (by omega)]
      · intro A' hAg b
        have hL := hlink s' m' (by omega) p2 A' hAg
        have hin := p4 A' (agree_right A' _ s' last (last + 1) m' hAg (by
          intro p hp
          exact ⟨last + 1, by omega, Nat.le_refl _, (hfrom p hp).2⟩) (by omega))
        have ylen : (setPlace X b).length = X.length := by rw [setPlace, List.length_set]
        have y1 : (setPlace X b)[1]? = some (.str (showNat (last + 1))) := by
          rw [setPlace, List.getElem?_set_ne (by omega)]
          exact x1
        have y0 : (setPlace X b)[0]? = some (.str panelKind) := by
          rw [setPlace, List.getElem?_set_ne (by omega), x0]
          exact hk'
        have y21 : get2 (setPlace X b) 2 1 = some (.list pr2) := by
          rw [setPlace, get2_set _ _ _ _ _ (by omega)]
          exact x21
        have ye : (setPlace X b)[(setPlace X b).length - 1]? = some (.list er2) := by
          rw [ylen, setPlace, List.getElem?_set_ne (by omega)]
          exact xe
        have ye' : fromEnd (setPlace X b) 1 = some (.list er2) := by rw [fromEnd, if_pos (by omega)]; exact ye
        generalize hY : setPlace X b = Y at *
        rw [renumElem, y1, Option.bind_some]
        simp only
        rw [y0, if_neg (by simp), y21, listOf, Option.bind_some, ye', listOf, Option.bind_some, hin, hL]
        simp only [Option.map_some]
        rw [Form.set_same _ _ _ y1, set2_same _ _ _ _ y21, Form.set_same _ _ _ ye]

/-! ### the form -/

theorem attrOf_in (raw : List Val) (v : Val) (t : Text) (h : attrOf raw v = some t) : Val.str t ∈ attrIds raw := by
  rw [attrOf] at h
  cases hd : dictGet ((links raw).filter (fun l => decide (l.2 ∈ attrIds raw))) v with
  | none => rw [hd] at h; cases h
  | some w =>
    rw [hd] at h
    have hm := (List.mem_filter.mp (dictGet_some _ _ _ hd)).2
    cases w with
    | none => cases h
    | list _ => cases h
    | str u => cases h; simpa using hm

theorem dictGet_keys {α β γ : Type} [DecidableEq α] [DecidableEq β] (g : α → β) (hg : ∀ a b, g a = g b → a = b) (h : γ → γ) (L : List (α × γ)) (k : α) :
    dictGet (L.map (fun p => (g p.1, p.2))) (g k) = dictGet L k := by
  rw [dictGet, dictGet, ← List.map_reverse, List.find?_map, Option.map_map]
  have e : ((fun e : β × γ => decide (e.1 = g k)) ∘ fun p : α × γ => (g p.1, p.2)) = fun e : α × γ => decide (e.1 = k) := by
    funext p
    show decide (g p.1 = g k) = decide (p.1 = k)
    by_cases hk : p.1 = k
    · rw [decide_eq_true hk, decide_eq_true (by rw [hk])]
    · rw [decide_eq_false hk, decide_eq_false (fun he => hk (hg _ _ he))]
  rw [e]
  rfl

/-- the links of a form numbered anew -/
theorem links_new (raw2 : List Val) (S : List (Text × Text)) (h : get2 raw2 2 3 = some (.list (.str (showNat S.length) ::
    S.map (fun l => Val.list [.str l.1, .list [.str ['1'], .list [.str l.2]]])))) : links raw2 = S.map (fun l => (.str l.1, .str l.2)) := by
  rw [links, h, counted, countAt_show]
  simp only
  rw [List.drop_succ_cons, List.drop_zero, List.take_of_length_le (by rw [List.length_map]; exact Nat.le_refl _), List.filterMap_map]
  have : (linkPair ∘ fun l : Text × Text => Val.list [.str l.1, .list [.str ['1'], .list [.str l.2]]]) = fun l => some ((Val.str l.1, Val.str l.2) : Val × Val) := by
    funext l
    rfl
  rw [this, List.filterMap_eq_map']

theorem form_fix (depth : Nat) (raw out : List Val) (h : renumForm (attrOf raw) depth raw = some out) (hl : ∃ v, get2 raw 2 3 = some v)
    (hA : ∀ panel er, get2 raw 1 2 = some (.list panel) → panel[2]? = some (.list er) → ∀ r ∈ allElems depth er, Apart r) :
    renumForm (attrOf out) depth out = some out := by
  rw [renumForm] at h
  simp only [Option.bind_eq_some_iff, Option.map_eq_some_iff] at h
  obtain ⟨panel, hpanel, pr, hpr, er, her, ⟨pr2, er2, m, S⟩, hp, rfl⟩ := h
  have hpanel := listOf_some _ _ hpanel
  have hpr := listOf_some _ _ hpr
  have her := listOf_some _ _ her
  obtain ⟨p1, p2, p3, p4⟩ := panel_fix (attrOf raw) depth (elem_fix _ depth) 1 pr er pr2 er2 m S hp (hA panel er hpanel her)
  obtain ⟨v, hv⟩ := hl
  simp only
  generalize hout : set2 (set2 raw 1 2 (.list ((set2 panel 1 1 (.list pr2)).set 2 (.list er2)))) 2 3
    (.list (.str (showNat S.length) :: S.map (fun l => Val.list [.str l.1, .list [.str ['1'], .list [.str l.2]]]))) = out
  have o12 : get2 out 1 2 = some (.list ((set2 panel 1 1 (.list pr2)).set 2 (.list er2))) := by
    rw [← hout, get2_set2_ne _ _ _ _ _ _ (by omega)]
    exact get2_set2 raw 1 2 _ _ hpanel
  have o23 : get2 out 2 3 = some (.list (.str (showNat S.length) :: S.map (fun l => Val.list [.str l.1, .list [.str ['1'], .list [.str l.2]]]))) := by
    rw [← hout]
    apply get2_set2 _ 2 3 v
    rw [get2_set2_ne _ _ _ _ _ _ (by omega)]
    exact hv
  have o22 : get2 out 2 2 = get2 raw 2 2 := by
    obtain ⟨l2, h2⟩ := get2_at raw 2 3 _ hv
    have e2 : (set2 raw 1 2 (.list ((set2 panel 1 1 (.list pr2)).set 2 (.list er2))))[2]? = some (.list l2) := by
      rw [set2_ne _ _ _ _ _ (by omega)]
      exact h2
    rw [← hout, set2, e2]
    simp only
    rw [get2, List.getElem?_set_self (List.getElem?_eq_some_iff.mp e2).1]
    simp only
    rw [List.getElem?_set_ne (by omega), get2, h2]
  have hids : attrIds out = attrIds raw := by rw [attrIds, attrIds, o22]
  have hlinks := links_new out S o23
  have hag : Agree (attrOf out) S 1 m := by
    intro k _ _
    have hall : (links out).filter (fun l => decide (l.2 ∈ attrIds out)) = links out := by
      rw [List.filter_eq_self]
      intro l hl
      rw [hlinks] at hl
      obtain ⟨p, hp, rfl⟩ := List.mem_map.mp hl
      obtain ⟨old, ho⟩ := p3 p hp
      rw [hids]
      exact decide_eq_true (attrOf_in raw old p.2 ho)
    rw [attrOf, hall, hlinks]
    have e1 := dictGet_map (fun t : Text => Val.str t) (S.map (fun l => ((Val.str l.1 : Val), l.2))) (.str (showNat k))
    rw [List.map_map] at e1
    have e2 := dictGet_keys (fun t : Text => Val.str t) (fun a b h => by injection h) (fun t : Text => t) S (showNat k)
    have e3 : dictGet (S.map (fun l => ((Val.str l.1 : Val), (Val.str l.2 : Val)))) (.str (showNat k)) = (dictGet S (showNat k)).map (fun t => Val.str t) := by
      rw [← e2]
      exact e1
    rw [e3]
    cases dictGet S (showNat k) with
    | none => rfl
    | some t => rfl
  have hfin := p4 (attrOf out) hag
  generalize hP : (set2 panel 1 1 (.list pr2)).set 2 (.list er2) = P at *
  have q1 : get2 P 1 1 = some (.list pr2) := by
    rw [← hP, get2_set _ _ _ _ _ (by omega)]
    exact get2_set2 panel 1 1 _ _ hpr
  have q2 : P[2]? = some (.list er2) := by
    rw [← hP]
    apply List.getElem?_set_self
    rw [set2_length]
    exact (List.getElem?_eq_some_iff.mp her).1
  rw [renumForm, o12, listOf, Option.bind_some, q1, listOf, Option.bind_some, q2, listOf, Option.bind_some, hfin]
  simp only [Option.map_some]
  rw [set2_same P 1 1 _ q1, Form.set_same P 2 _ q2, set2_same out 1 2 _ o12, set2_same out 2 3 _ o23]

end V8.OAuto
