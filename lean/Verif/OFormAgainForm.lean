import Verif.OFormAgainPanel
/-
The second round: a form numbered anew is taken apart and put together without any change.
-/
namespace V8.OAuto
open V8.Brace V8.Dec
open V8.Form (count countAt dictGet marker nonEmpty calcOffset truthy Rec countAt_congr countAt_some idx nameAt dictGet_mem dictGet_some hashable seq)
open V8.OForm hiding formOut formIn elemOut elemIn elemsOut elemsIn elemsLoop elem_rt form_rt

theorem elem_again (A : Val → Option Text) (P P' : List (Val × Text)) : ∀ depth, ElemAgain A P P' depth
  | 0 => fun path names k u raw it last x m s a b h => by cases h
  | depth + 1 => by
    intro path names k u raw it last x m s a b h h0 hk hT hn hnm hin hr ha hb hends
    have hap := apart_of P (depth + 1) path names k raw it u a h h0 hk ha
    have hsh := renum_shape A (depth + 1) last raw x m s hr hap
    have h5 := hap.size
    rw [elemOut] at h
    simp only [Option.bind_eq_some_iff] at h
    obtain ⟨⟨name, page, idv⟩, hh, i, hi, h⟩ := h
    simp only at hi
    have hh2 := head_again path names raw x name page idv i last a b hh hi hnm ha hsh hap hb
    have hylen : (setPlace x b).length = raw.length := by rw [setPlace, List.length_set, hsh.size]
    have hy0 : (setPlace x b)[0]? = raw[0]? := by
      rw [setPlace, hsh.size, List.getElem?_set_ne (by omega)]
      exact hsh.kind
    have hyp : placeOf (setPlace x b) = some b := placeOf_set x a b (by rw [hsh.place]; exact ha)
    have hlab : labelOf (setPlace x b) = labelOf raw := by rw [labelOf, labelOf, hy0]
    have hyends : ∀ c, placeOf (setPlace x b) = some c → (hits [] c).isSome = true := by
      intro c hc
      rw [hyp] at hc
      cases hc
      exact hends
    by_cases hkf : k = false
    · rw [if_pos hkf] at h
      replace h := Option.some.inj h
      subst h
      have hnp : raw[0]? ≠ some (.str panelKind) := by
        intro e
        rw [h0] at e
        injection e with e
        injection e with e
        have := (isPanel_iff u k hk).mpr e
        rw [hkf] at this
        cases this
      refine ⟨⟨⟨.mk name (labelOf (setPlace x b)) [] [], calcId path page name, i, .str (showNat (last + 1)), setPlace x b,
        nonEmpty (dictGet P' (.str (showNat (last + 1)))), []⟩, ?_, ?_, rfl, rfl, hyp, List.Perm.refl _, ?_⟩, ?_⟩
      · rw [elemOut, hh2, Option.bind_some]
        simp only
        rw [hi, Option.bind_some, if_pos hkf]
      · simp only [hlab]
      · intro r hr
        rcases allElems_one depth _ r hr with rfl | ⟨er, hp, _⟩
        · exact ⟨hyends, (fun hp => absurd hp (by rw [hy0]; exact hnp)), fun hp => absurd hp (by rw [hy0]; exact hnp)⟩
        · exact absurd hp (by rw [hy0]; exact hnp)
      · intro r hr
        rcases allElems_one depth _ r hr with rfl | ⟨er, hp, _⟩
        · exact hap
        · exact absurd hp hnp
    · rw [if_neg hkf] at h
      have hkt : k = true := by simpa using hkf
      have hu := (isPanel_iff u k hk).mp hkt
      have hkind : raw[0]? = some (.str panelKind) := by rw [h0, hu]
      by_cases hl : raw.length < 6
      · rw [if_pos hl] at h; cases h
      · rw [if_neg hl] at h
        simp only [Option.bind_eq_some_iff, Option.map_eq_some_iff] at h
        obtain ⟨pr, hpr, er, her, ⟨pr', er', tree, es⟩, ho, rfl⟩ := h
        simp only at hn hin
        have hg := listOf_some _ _ hpr
        have he := listOf_some _ _ her
        have htidy := hT raw (allElems_self depth raw)
        rw [renumElem, Option.bind_eq_some_iff] at hr
        obtain ⟨old, _, hr⟩ := hr
        simp only at hr
        rw [if_neg (by rw [hkind]; simp)] at hr
        simp only [Option.bind_eq_some_iff, Option.map_eq_some_iff] at hr
        obtain ⟨pr0, hpr0, er0, her0, ⟨pr2, er2, m', s'⟩, hrp, heq⟩ := hr
        rw [hpr] at hpr0
        cases hpr0
        rw [her] at her0
        cases her0
        simp only [Prod.mk.injEq] at heq
        obtain ⟨hx, rfl, rfl⟩ := heq
        obtain ⟨⟨p2, e2, es2, g1, g2, g3, g4, g5⟩, g6⟩ := panel_again A P P' depth (elem_again A P P' depth) (inside (calcId path page name)) pr er pr' er' tree es ho
          (htidy.pages hkind pr hg) (htidy.elems hkind er he) (fun r hr => hT r (allElems_inner depth raw er r hkind he hr))
          (fun t ht => hn t (by rw [OForm.allNames]; exact List.mem_cons_of_mem _ (List.mem_append_left _ ht))) hin (last + 1) pr2 er2 m' s' hrp
        have y21 : get2 (setPlace x b) 2 1 = some (.list pr2) := by
          rw [setPlace, hsh.size, get2_set _ _ _ _ _ (by omega), ← hx, get2_set _ _ _ _ _ (by omega)]
          apply get2_set2 _ 2 1 (.list pr)
          rw [get2_set _ _ _ _ _ (by omega)]
          exact hg
        have ye : fromEnd (setPlace x b) 1 = some (.list er2) := by
          rw [fromEnd, hylen, if_pos (by omega), setPlace, hsh.size, List.getElem?_set_ne (by omega), ← hx]
          apply List.getElem?_set_self
          rw [set2_length, List.length_set]
          omega
        refine ⟨⟨⟨.mk name panelLabel [] tree, calcId path page name, i, .str (showNat (last + 1)),
          (set2 (setPlace x b) 2 1 (.list p2)).set ((setPlace x b).length - 1) (.list e2),
          nonEmpty (dictGet P' (.str (showNat (last + 1)))), es2⟩, ?_, rfl, rfl, rfl, ?_, g2, ?_⟩, ?_⟩
        · rw [elemOut, hh2, Option.bind_some]
          simp only
          rw [hi, Option.bind_some, if_neg hkf, if_neg (by rw [hylen]; exact hl), y21, listOf, Option.bind_some, ye, listOf, Option.bind_some, g1]
          rfl
        · show placeOf ((set2 (setPlace x b) 2 1 (.list p2)).set ((setPlace x b).length - 1) (.list e2)) = some b
          rw [place_kept _ _ _ (by omega)]
          exact hyp
        · intro r hr
          rcases allElems_one depth _ r hr with rfl | ⟨er3, _, he3, hr3⟩
          · refine ⟨hyends, fun _ pr3 h3 => ?_, fun _ er3 h3 => ?_⟩
            · rw [y21] at h3
              cases h3
              exact g3
            · rw [ye] at h3
              cases h3
              exact g4
          · rw [ye] at he3
            cases he3
            exact g5 r hr3
        · intro r hr
          rcases allElems_one depth _ r hr with rfl | ⟨er3, _, he3, hr3⟩
          · exact hap
          · rw [he] at he3
            cases he3
            exact g6 r hr3

/-! ### the form -/

theorem linksLoop_ok (I : List (Val × Text)) : ∀ (S : List (Text × Text)),
    ∃ P, linksLoop I S.length (S.map (fun l => Val.list [.str l.1, .list [.str ['1'], .list [.str l.2]]])) = some P
  | [] => ⟨[], rfl⟩
  | l :: r => by
    obtain ⟨P, hP⟩ := linksLoop_ok I r
    have e1 : idx (Val.list [.str l.1, .list [.str ['1'], .list [.str l.2]]]) 0 = some (.str l.1) := rfl
    have e2 : ((idx (Val.list [.str l.1, .list [.str ['1'], .list [.str l.2]]]) 1).bind (idx · 1)).bind (idx · 0) = some (.str l.2) := rfl
    rw [List.length_cons, List.map_cons, linksLoop, e1, e2, hP]
    simp only
    rw [if_neg (by simp [hashable])]
    cases dictGet I (.str l.2) with
    | none => exact ⟨P, rfl⟩
    | some name =>
      simp only
      rw [if_neg (by simp [hashable])]
      exact ⟨_, rfl⟩

theorem form_again (ni depth : Nat) (raw raw' : List Val) (src : Src) (h : formOut ni depth raw = some (raw', src))
    (main : ∀ panel, get2 raw 1 2 = some (.list panel) → (∀ pr, get2 panel 1 1 = some (.list pr) → TidyPages pr) ∧
      ∀ er, panel[2]? = some (.list er) → TidyList er ∧ ∀ r ∈ allElems depth er, TidyElem r)
    (names : ∀ t ∈ OForm.allNames src.tree, t ≠ []) (paths : (src.data.map (·.1)).Nodup)
    (hlinks : ∃ ls, get2 raw 2 3 = some (.list ls)) (out : List Val) (hout : renumForm (attrOf raw) depth raw = some out) :
    (∃ out' src', formOut ni depth out = some (out', src') ∧ src'.attrs = src.attrs ∧ src'.tree = src.tree ∧
      (src'.data.map (·.1)).Perm (src.data.map (·.1))) ∧
    (∀ panel, get2 out 1 2 = some (.list panel) → (∀ pr, get2 panel 1 1 = some (.list pr) → TidyPages pr) ∧
      ∀ er, panel[2]? = some (.list er) → TidyList er ∧ ∀ r ∈ allElems depth er, TidyElem r) ∧
    (∃ ls, get2 out 2 3 = some (.list ls)) ∧
    (∀ panel er, get2 raw 1 2 = some (.list panel) → panel[2]? = some (.list er) → ∀ r ∈ allElems depth er, Apart r) := by
  obtain ⟨ls, hls⟩ := hlinks
  rw [renumForm] at hout
  simp only [Option.bind_eq_some_iff, Option.map_eq_some_iff] at hout
  obtain ⟨panel, hpanel, pr, hpr, er, her, ⟨pr2, er2, m, S⟩, hrp, ho⟩ := hout
  simp only at ho
  rw [formOut] at h
  simp only [Option.bind_eq_some_iff] at h
  obtain ⟨al, hal, ⟨al', at'⟩, hat, panel', hpanel', h⟩ := h
  rw [hpanel] at hpanel'
  cases hpanel'
  by_cases hk : panel[0]? ≠ some (.str panelKind)
  · rw [if_pos hk] at h; cases h
  · rw [if_neg hk] at h
    simp only [Option.bind_eq_some_iff, Option.map_eq_some_iff] at h
    obtain ⟨P, hP, pr', hpr', er', her', ⟨prx, erx, tree, es⟩, hpo, heq⟩ := h
    rw [hpr] at hpr'
    cases hpr'
    rw [her] at her'
    cases her'
    simp only [Prod.mk.injEq] at heq
    obtain ⟨rfl, rfl⟩ := heq
    simp only at names paths
    have hal0 := listOf_some _ _ hal
    have hpanel := listOf_some _ _ hpanel
    have hpr := listOf_some _ _ hpr
    have her := listOf_some _ _ her
    obtain ⟨m1, m2⟩ := main panel hpanel
    obtain ⟨m3, m4⟩ := m2 er her
    have o12 : get2 out 1 2 = some (.list ((set2 panel 1 1 (.list pr2)).set 2 (.list er2))) := by
      rw [← ho, get2_set2_ne _ _ _ _ _ _ (by omega)]
      exact get2_set2 raw 1 2 _ _ hpanel
    have o23 : get2 out 2 3 = some (.list (.str (showNat S.length) :: S.map (fun l => Val.list [.str l.1, .list [.str ['1'], .list [.str l.2]]]))) := by
      rw [← ho]
      apply get2_set2 _ 2 3 (.list ls)
      rw [get2_set2_ne _ _ _ _ _ _ (by omega)]
      exact hls
    have o22 : get2 out 2 2 = some (.list al) := by
      obtain ⟨l2, h2⟩ := get2_at raw 2 3 _ hls
      have e2 : (set2 raw 1 2 (.list ((set2 panel 1 1 (.list pr2)).set 2 (.list er2))))[2]? = some (.list l2) := by
        rw [set2_ne _ _ _ _ _ (by omega)]
        exact h2
      rw [← ho, set2, e2]
      simp only
      rw [get2, List.getElem?_set_self (List.getElem?_eq_some_iff.mp e2).1]
      simp only
      rw [List.getElem?_set_ne (by omega), ← hal0, get2, h2]
    have o23' : get2 (set2 out 2 2 (.list al')) 2 3 = get2 out 2 3 := by
      obtain ⟨l2, h2⟩ := get2_at out 2 2 _ o22
      rw [set2, h2]
      simp only
      rw [get2, List.getElem?_set_self (List.getElem?_eq_some_iff.mp h2).1]
      simp only
      rw [List.getElem?_set_ne (by omega), get2, h2]
    generalize hPn : (set2 panel 1 1 (.list pr2)).set 2 (.list er2) = Pn at *
    have q0 : Pn[0]? = panel[0]? := by
      rw [← hPn, List.getElem?_set_ne (by omega), set2_ne _ _ _ _ _ (by omega)]
    have q1 : get2 Pn 1 1 = some (.list pr2) := by
      rw [← hPn, get2_set _ _ _ _ _ (by omega)]
      exact get2_set2 panel 1 1 _ _ hpr
    have q2 : Pn[2]? = some (.list er2) := by
      rw [← hPn]
      apply List.getElem?_set_self
      rw [set2_length]
      exact (List.getElem?_eq_some_iff.mp her).1
    -- the attributes shown
    obtain ⟨P', hP'⟩ : ∃ P', elemProps at' (get2 (set2 out 2 2 (.list al')) 2 3) = some P' := by
      rw [o23', o23]
      cases at' with
      | none => exact ⟨[], rfl⟩
      | some l =>
        rw [elemProps.eq_def]
        rw [elemProps.eq_def] at hP
        simp only at hP ⊢
        by_cases hl : l = []
        · rw [if_pos hl]; exact ⟨[], rfl⟩
        · rw [if_neg hl] at hP ⊢
          by_cases hall : l.all (fun a => hashable a.id) = false
          · rw [if_pos hall] at hP; cases hP
          · rw [if_neg hall]
            simp only [Option.bind_some, seq]
            rw [countAt_show]
            exact linksLoop_ok _ S
    obtain ⟨⟨p2, e2, es2, g1, g2, g3, g4, g5⟩, g6⟩ := panel_again (attrOf raw) P P' depth (elem_again _ P P' depth) [] pr er prx erx tree es hpo (m1 pr hpr) m3 m4 names
      paths 1 pr2 er2 m S hrp
    refine ⟨⟨set2 (set2 out 2 2 (.list al')) 1 2 (.list ((set2 Pn 1 1 (.list p2)).set 2 (.list e2))), ⟨at', tree, es2⟩, ?_, rfl, rfl, g2⟩, ?_, ⟨_, o23⟩, ?_⟩
    · rw [formOut, o22, listOf, Option.bind_some, hat, Option.bind_some, o12, listOf, Option.bind_some, q0, if_neg hk]
      simp only
      rw [hP', Option.bind_some, q1, listOf, Option.bind_some, q2, listOf, Option.bind_some, g1]
      rfl
    · intro panel3 h3
      rw [o12] at h3
      cases h3
      refine ⟨fun pr3 h3 => ?_, fun er3 h3 => ?_⟩
      · rw [q1] at h3
        cases h3
        exact g3
      · rw [q2] at h3
        cases h3
        exact ⟨g4, g5⟩
    · intro panel3 er3 h3 h4
      rw [hpanel] at h3
      cases h3
      rw [her] at h4
      cases h4
      exact g6

end V8.OAuto
