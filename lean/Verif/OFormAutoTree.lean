import Verif.OFormAutoElem
/-
Panels and elements of an ordinary form with the option auto_include come back numbered anew.
-/
namespace V8.OAuto
open V8.Brace V8.Dec
open V8.Form (count countAt dictGet marker nonEmpty calcOffset truthy Rec countAt_congr countAt_some idx nameAt dictGet_mem dictGet_some hashable seq)
open V8.OForm hiding formOut formIn elemOut elemIn elemsOut elemsIn elemsLoop

/-- the element as the build makes it from its entry is the renumbered one but for the names in its place -/
def ElemBack (A : Val → Option Text) (P : List (Val × Text)) (N : List (Text × Val)) (D : List (Text × Entry)) (depth : Nat) : Prop :=
  ∀ (path : Text) (names : List Text) (k : Bool) (raw : List Val) (it : Item) (pg : Text) (a a1 : List Val),
    elemOut P depth path names k raw = some it → (k = true ↔ raw[0]? = some (.str panelKind)) →
    (∀ r ∈ allElems depth [.list raw], TidyElem r) → (∀ t ∈ OForm.allNames [it.node], t ≠ []) → (∀ t ∈ names, t ≠ []) →
    (names.map (fun t => calcId path t [])).Nodup → (it.inner.map (·.1)).Nodup → (∀ e ∈ it.inner, dictGet D e.1 = some e.2) →
    names[it.page]? = some pg → placeOf raw = some a → dictGet D it.key = some (.elem (setPlace it.raw a1) it.prop) →
    ∀ last, ∃ x m s, renumElem A depth last raw = some (x, m, s) ∧ elemIn N D depth (pageId path pg) last it.node = some (setPlace x a1, m, s) ∧
      placeOf x = some a

theorem entries_nodup (its : List Item) (h : ((entriesOf its).map (·.1)).Nodup) :
    (its.map (·.key)).Nodup ∧ (∀ it ∈ its, (it.inner.map (·.1)).Nodup) ∧
      ∀ it ∈ its, ∀ e ∈ it.inner, e.1 ∉ its.map (·.key) := by
  induction its with
  | nil => exact ⟨List.nodup_nil, fun it hi => absurd hi List.not_mem_nil, fun it hi => absurd hi List.not_mem_nil⟩
  | cons x r ih =>
    have hsplit : (entriesOf (x :: r)).map (·.1) = x.key :: (x.inner.map (·.1) ++ (entriesOf r).map (·.1)) := by
      rw [entriesOf, entriesOf, List.flatMap_cons, List.map_append]
      rfl
    rw [hsplit, List.nodup_cons, List.nodup_append] at h
    obtain ⟨h1, h2, h3, h4⟩ := h
    obtain ⟨i1, i2, i3⟩ := ih h3
    have hk : ∀ it ∈ r, it.key ∈ (entriesOf r).map (·.1) := fun it hi => by
      rw [entriesOf, List.map_flatMap]
      exact List.mem_flatMap.mpr ⟨it, hi, by rw [List.map_cons]; exact List.mem_cons_self⟩
    have hi : ∀ it ∈ r, ∀ e ∈ it.inner, e.1 ∈ (entriesOf r).map (·.1) := fun it hi e he => by
      rw [entriesOf, List.map_flatMap]
      exact List.mem_flatMap.mpr ⟨it, hi, by rw [List.map_cons]; exact List.mem_cons_of_mem _ (List.mem_map.mpr ⟨e, he, rfl⟩)⟩
    refine ⟨?_, ?_, ?_⟩
    · rw [List.map_cons, List.nodup_cons]
      refine ⟨fun hm => ?_, i1⟩
      obtain ⟨it, hit, he⟩ := List.mem_map.mp hm
      exact h1 (List.mem_append_right _ (he ▸ hk it hit))
    · intro it hit
      rcases List.mem_cons.mp hit with hit | hit
      · rw [hit]; exact h2
      · exact i2 it hit
    · intro it hit e he hm
      rw [List.map_cons] at hm
      rcases List.mem_cons.mp hit with hit | hit
      · subst hit
        rcases List.mem_cons.mp hm with hm | hm
        · exact h1 (List.mem_append_left _ (List.mem_map.mpr ⟨e, he, hm⟩))
        · obtain ⟨it2, hit2, he2⟩ := List.mem_map.mp hm
          exact h4 e.1 (List.mem_map.mpr ⟨e, he, rfl⟩) it2.key (hk it2 hit2) he2.symm
      · rcases List.mem_cons.mp hm with hm | hm
        · exact h1 (List.mem_append_right _ (hm ▸ hi it hit e he))
        · exact i3 it hit e he hm

theorem entry_own (its : List Item) (it : Item) (hi : it ∈ its) : (it.key, Entry.elem it.raw it.prop) ∈ entriesOf its := by
  rw [entriesOf]
  exact List.mem_flatMap.mpr ⟨it, hi, List.mem_cons_self⟩

theorem entry_inner (its : List Item) (it : Item) (hi : it ∈ its) (e : Text × Entry) (he : e ∈ it.inner) : e ∈ entriesOf its := by
  rw [entriesOf]
  exact List.mem_flatMap.mpr ⟨it, hi, List.mem_cons_of_mem _ he⟩

/-- a panel comes back numbered anew -/
theorem panel_rt (A : Val → Option Text) (P : List (Val × Text)) (N : List (Text × Val)) (D : List (Text × Entry)) (depth : Nat)
    (hE : ElemBack A P N D depth) (path bpath : Text) (pr er pr' er' : List Val) (tree : List Node) (es : List (Text × Entry))
    (h : panelOut (elemOut P depth path) path pr er = some (pr', er', tree, es))
    (hTP : TidyPages pr) (hTL : TidyList er) (hTE : ∀ r ∈ allElems depth er, TidyElem r) (hn : ∀ t ∈ OForm.allNames tree, t ≠ [])
    (hnd : (es.map (·.1)).Nodup) (hD : ∀ e ∈ es, dictGet D e.1 = some e.2) (hb1 : inside bpath = path) (hb2 : insideRef bpath = path) (last : Nat) :
    ∃ o, renumPanel (renumElem A depth) last pr er = some o ∧ panelIn D (elemIn N D depth) bpath tree last pr' er' = some o := by
  rw [panelOut] at h
  simp only [Option.bind_eq_some_iff, Option.map_eq_some_iff] at h
  obtain ⟨⟨pr1, names, es1⟩, hp, pr2, hd, ⟨er2, tree2, es2⟩, hel, heq⟩ := h
  simp only [Prod.mk.injEq] at heq
  obtain ⟨rfl, rfl, rfl, rfl⟩ := heq
  simp only at hd hel hn
  obtain ⟨R, q, hskip, hq, hq1, hq2⟩ := panel_pages D path pr pr1 pr2 names es1 hp hd hTP (fun e he => hD e (List.mem_append_left _ he))
  obtain ⟨hcount, hpk, _, _⟩ := pagesOut_facts path pr pr1 names es1 hp
  rw [List.map_append, List.nodup_append] at hnd
  obtain ⟨hnd1, hnd2, _⟩ := hnd
  have hpn : (names.map (fun t => calcId path t [])).Nodup := by
    rw [hpk, List.nodup_append] at hnd1
    exact hnd1.1
  rw [elemsOut] at hel
  cases hc : countAt er 0 with
  | none => rw [hc] at hel; cases hel
  | some n =>
    have her : ∃ c rest, er = .str c :: rest := by
      have := countAt_some er 0 n hc
      cases er with
      | nil => cases this
      | cons v rest =>
        cases v with
        | str c => exact ⟨c, rest, rfl⟩
        | none => cases this
        | list _ => cases this
    obtain ⟨c, rest, rfl⟩ := her
    have hsize := hTL.size n hc
    rw [List.length_cons] at hsize
    rw [hc] at hel
    cases n with
    | zero =>
      simp only [Option.some.injEq, Prod.mk.injEq] at hel
      obtain ⟨rfl, rfl, rfl⟩ := hel
      have : rest = [] := List.length_eq_zero_iff.mp (by omega)
      subst this
      exact panel_core D path bpath names pr pr2 [.str c] q R (.str c) (renumElem A depth) (elemIn N D depth) [] hb1 hb2 hcount hskip hq hq1 hq2 rfl
        List.nodup_nil List.nodup_nil (fun p hp => absurd hp List.not_mem_nil) last
    | succ n =>
      simp only [Option.bind_eq_some_iff, Option.map_eq_some_iff, List.drop_succ_cons, List.drop_zero] at hel
      obtain ⟨its, hloop, es3, hna, heq⟩ := hel
      simp only [Prod.mk.injEq] at heq
      obtain ⟨rfl, rfl, rfl⟩ := heq
      have hr0 : rest.drop (n + 1) = [] := List.drop_eq_nil_of_le (by omega)
      rw [hr0]
      obtain ⟨ps, hps, rfl, hf⟩ := elemsLoop_pairs _ _ _ _ hloop
      rw [List.take_of_length_le (by omega)] at hps
      have hmem : ∀ p ∈ ps, Val.list p.1 ∈ Val.str c :: rest := fun p hp => by
        rw [hps]
        exact List.mem_cons_of_mem _ (List.mem_map.mpr ⟨p, hp, rfl⟩)
      have hlo : listsOf ((Val.str c :: rest).drop 1) = ps.map (·.1) := by
        show listsOf rest = _
        rw [hps]
        exact listsOf_map (fun p : List Val × Item => p.1) ps
      have hnames := names_of_tree names _ hn
      -- the head of every element
      have hhead : ∀ p ∈ ps, ∃ pg, names[p.2.page]? = some pg ∧ p.2.key = pageId path pg ++ '/' :: nodeName p.2.node ∧
          p.1[1]? = some p.2.id ∧ p.2.page < names.length ∧ placeOf p.2.raw = placeOf p.1 ∧
          0 < depth ∧ (∀ t ∈ OForm.allNames [p.2.node], t ≠ []) := by
        intro p hp
        obtain ⟨k, hk, hkp⟩ := hf p hp
        obtain ⟨name, page, h1, h2, h3, h4, h5, h6⟩ := elemOut_head P depth path names k p.1 p.2 hk
        have hlow := pageIndex_low path names page _ h2
        have hit : ∀ t ∈ OForm.allNames [p.2.node], t ≠ [] := names_of_item names _ hn p.2 (List.mem_map.mpr ⟨p, hp, rfl⟩) hlow
        have hnm : name ≠ [] := by
          apply hit
          rw [← h4]
          cases p.2.node with
          | mk a b c d =>
            rw [OForm.allNames]
            exact List.mem_cons_self
        have hpi := pageIndex_some path names page _ h2 hnames
        have hpne := hnames page (List.mem_of_getElem? hpi)
        have hid : p.1[1]? = some p.2.id := by
          rw [headOf] at h1
          cases e1 : (fromEnd p.1 2).bind (nameAt · 1) with
          | none => rw [e1] at h1; cases h1
          | some nm =>
            cases e2 : ((fromEnd p.1 3).bind seq).bind (fromEnd · 5) with
            | none => rw [e1, e2] at h1; cases h1
            | some pv =>
              cases e3 : p.1[1]? with
              | none => rw [e1, e2, e3] at h1; cases h1
              | some v =>
                rw [e1, e2, e3] at h1
                simp only at h1
                by_cases hh : hashable v = false
                · rw [if_pos hh] at h1; cases h1
                · rw [if_neg hh, Option.map_eq_some_iff] at h1
                  obtain ⟨_, _, h1⟩ := h1
                  simp only [Prod.mk.injEq] at h1
                  rw [h1.2.2]
        refine ⟨page, hpi, ?_, hid, hlow, h5, h6, hit⟩
        rw [h3, h4, calcId_elem path page name hpne hnm]
      have hids : (ps.map (·.2.id)).Nodup := by
        have hi := hTL.ids
        have hz : listsOf (Val.str c :: rest) = ps.map (·.1) := hlo
        rw [hz, List.map_map] at hi
        have he : ps.map ((fun raw : List Val => raw[1]?) ∘ fun p => p.1) = (ps.map (·.2.id)).map some := by
          rw [List.map_map]
          apply List.map_congr_left
          intro p hp
          obtain ⟨_, _, _, h, _⟩ := hhead p hp
          exact h
        rw [he] at hi
        rw [List.Nodup, List.pairwise_map] at hi
        exact hi.imp (fun h e => h (congrArg some e))
      have hkeys3 : es3.map (·.1) = (entriesOf (ps.map (·.2))).map (·.1) := by
        have hk0 : ∀ (keys : List Text) (es es' : List (Text × Entry)),
            nameAll ((ps.map (·.2)).map (fun it => (it.id, it.key))) path keys es = some es' → es'.map (·.1) = es.map (·.1) := by
          intro keys
          induction keys with
          | nil => intro es es' h; cases h; rfl
          | cons k r ih =>
            intro es es' h
            rw [nameAll, Option.bind_eq_some_iff] at h
            obtain ⟨e2, h2, h3⟩ := h
            rw [ih _ _ h3]
            rw [nameRefs] at h2
            cases hg : dictGet es k with
            | none => rw [hg] at h2; cases h2
            | some v =>
              rw [hg] at h2
              cases v with
              | elem raw prop =>
                simp only [Option.bind_eq_some_iff, Option.map_eq_some_iff] at h2
                obtain ⟨_, _, _, _, rfl⟩ := h2
                exact dictSet_keys es k _
              | page _ _ => cases h2; rfl
              | pages _ => cases h2; rfl
        exact hk0 _ _ _ hna
      rw [hkeys3] at hnd2
      obtain ⟨n1, n2, n3⟩ := entries_nodup _ hnd2
      obtain ⟨_, s2, s3⟩ := nameAll_spec _ path _ _ _ hna n1
      have hkeys : (ps.map (·.2.key)).Nodup := by
        rw [List.map_map] at n1
        exact n1
      refine panel_core D path bpath names pr pr2 (.str c :: rest) q R (.str marker) (renumElem A depth) (elemIn N D depth) ps hb1 hb2 hcount hskip hq hq1 hq2
        hlo hids hkeys ?_ last
      intro p hp
      obtain ⟨pg, g1, g2, g3, g4, g5, g7, g8⟩ := hhead p hp
      have hit : p.2 ∈ ps.map (·.2) := List.mem_map.mpr ⟨p, hp, rfl⟩
      have hown := dictGet_mem _ hnd2 _ (entry_own _ p.2 hit)
      obtain ⟨a, a1, r1, r2, r3⟩ := s3 p.2.key (List.mem_map.mpr ⟨p.2, hit, rfl⟩) _ _ hown
      have hpa : placeOf p.1 = some a := by rw [← g5]; exact r1
      have htidy : ∀ r ∈ allElems depth [.list p.1], TidyElem r := fun r hr => hTE r (allElems_sub depth _ p.1 r (hmem p hp) hr)
      have hpno : pageNo names.length p.1 = some p.2.page := by
        obtain ⟨k, hk, hkp⟩ := hf p hp
        obtain ⟨name, page, h1, h2, _⟩ := elemOut_head P depth path names k p.1 p.2 hk
        exact (head_page path names p.1 name page p.2.id _ _ h1 h2 hnames hpn hpa).2.1
      refine ⟨g3, hpno, g4, pg, a, a1, g1, g2, hpa, ?_, ?_, ?_⟩
      · rw [List.map_map] at r2
        exact r2
      · obtain ⟨d, hd⟩ : ∃ d, depth = d + 1 := ⟨depth - 1, by omega⟩
        subst hd
        exact (htidy p.1 (allElems_self d p.1)).ends a hpa
      · obtain ⟨k, hk, hkp⟩ := hf p hp
        refine hE path names k p.1 p.2 pg a a1 hk hkp htidy g8 hnames hpn (n2 p.2 hit) ?_ g1 hpa ?_
        · intro e he
          have h1 := dictGet_mem _ hnd2 _ (entry_inner _ p.2 hit e he)
          rw [← s2 e.1 (n3 p.2 hit e he)] at h1
          exact hD _ (List.mem_append_right _ (dictGet_some _ _ _ h1))
        · exact hD _ (List.mem_append_right _ (dictGet_some _ _ _ r3))

/-- the four places of a panel that change -/
theorem panel_sets (raw l : List Val) (v e e2 pl p w : Val) (h : 6 ≤ raw.length) (h2 : raw[2]? = some (.list l)) :
    (set2 ((((set2 raw 2 1 p).set (raw.length - 1) e).set (raw.length - 3) pl).set 1 v) 2 1 w).set (raw.length - 1) e2 =
      ((set2 (raw.set 1 v) 2 1 w).set (raw.length - 1) e2).set (raw.length - 3) pl := by
  have s1 : set2 raw 2 1 p = raw.set 2 (.list (l.set 1 p)) := by rw [set2, h2]
  have s2 : set2 (raw.set 1 v) 2 1 w = (raw.set 1 v).set 2 (.list (l.set 1 w)) := by rw [set2, List.getElem?_set_ne (by omega), h2]
  have s3 : set2 ((((raw.set 2 (.list (l.set 1 p))).set (raw.length - 1) e).set (raw.length - 3) pl).set 1 v) 2 1 w =
      ((((raw.set 2 (.list (l.set 1 p))).set (raw.length - 1) e).set (raw.length - 3) pl).set 1 v).set 2 (.list (l.set 1 w)) := by
    rw [set2, List.getElem?_set_ne (by omega), List.getElem?_set_ne (by omega), List.getElem?_set_ne (by omega), List.getElem?_set_self (by omega)]
    simp only [List.set_set]
  rw [s1, s2, s3]
  generalize hn : raw.length = n at *
  apply List.ext_getElem?
  intro i
  by_cases i1 : i = n - 1
  · subst i1
    rw [List.getElem?_set_self (by simp only [List.length_set]; omega), List.getElem?_set_ne (by omega),
      List.getElem?_set_self (by simp only [List.length_set]; omega)]
  · rw [List.getElem?_set_ne (Ne.symm i1)]
    by_cases i3 : i = n - 3
    · subst i3
      rw [List.getElem?_set_ne (by omega), List.getElem?_set_ne (by omega), List.getElem?_set_self (by simp only [List.length_set]; omega),
        List.getElem?_set_self (by simp only [List.length_set]; omega)]
    · rw [List.getElem?_set_ne (Ne.symm i3), List.getElem?_set_ne (Ne.symm i1)]
      by_cases i2 : i = 2
      · subst i2
        rw [List.getElem?_set_self (by simp only [List.length_set]; omega), List.getElem?_set_self (by simp only [List.length_set]; omega)]
      · rw [List.getElem?_set_ne (Ne.symm i2), List.getElem?_set_ne (Ne.symm i2)]
        by_cases i0 : i = 1
        · subst i0
          rw [List.getElem?_set_self (by simp only [List.length_set]; omega), List.getElem?_set_self (by omega)]
        · rw [List.getElem?_set_ne (Ne.symm i0), List.getElem?_set_ne (Ne.symm i3), List.getElem?_set_ne (Ne.symm i1),
            List.getElem?_set_ne (Ne.symm i2), List.getElem?_set_ne (Ne.symm i0)]

theorem get2_at (raw : List Val) (i j : Nat) (v : Val) (h : get2 raw i j = some v) : ∃ l, raw[i]? = some (.list l) := by
  rw [get2] at h
  cases hr : raw[i]? with
  | none => rw [hr] at h; cases h
  | some x =>
    cases x with
    | none => rw [hr] at h; cases h
    | str _ => rw [hr] at h; cases h
    | list l => exact ⟨l, rfl⟩

/-- an element comes back numbered anew -/
theorem elem_rt (P : List (Val × Text)) (N : List (Text × Val)) (D : List (Text × Entry))
    (hP : ∀ e ∈ P, ∀ p, nonEmpty (some e.2) = some p → (textOf (dictGet N p)).isSome = true) (hI : ∀ e ∈ D, insideRef e.1 = inside e.1) :
    ∀ depth, ElemBack (shown P N) P N D depth := by
  intro depth
  induction depth with
  | zero => intro path names k raw it pg a a1 h; cases h
  | succ depth ih =>
    intro path names k raw it pg a a1 h hk hT hn hnm hpn hin hD hpg ha hkey last
    have hkeyD := dictGet_some D _ _ hkey
    rw [elemOut] at h
    simp only [Option.bind_eq_some_iff] at h
    obtain ⟨⟨name, page, idv⟩, hh, i, hi, h⟩ := h
    simp only at hi
    obtain ⟨f1, f2, f3, f4⟩ := head_page path names raw name page idv i a hh hi hnm hpn ha
    have hpne := hnm page (List.mem_of_getElem? f1)
    by_cases hkf : k = false
    · rw [if_pos hkf] at h
      cases h
      simp only at hpg hkey hn
      rw [f1] at hpg
      replace hpg := Option.some.inj hpg
      subst hpg
      have hnn : name ≠ [] := hn name (by rw [OForm.allNames]; exact List.mem_cons_self)
      rw [calcId_elem path page name hpne hnn] at hkey
      rw [placeOf_iff] at ha
      have h1 : raw.length - 3 ≠ 1 := by
        intro e
        rw [e, f3] at ha
        have := ha.2
        injection this with this
        exact hashable_list a idv f4 this
      have hlen : 2 ≤ raw.length := by omega
      refine ⟨raw.set 1 (.str (showNat (last + 1))), last + 1, (shown P N idv).toList.map (fun a => (showNat (last + 1), a)), ?_, ?_, ?_⟩
      · rw [renumElem, f3, Option.bind_some]
        simp only
        rw [if_pos (by
          intro e
          have := hk.mpr e
          rw [hkf] at this
          cases this)]
      · rw [elemIn, hkey, Option.bind_some, Entry.asElem, Option.bind_some]
        simp only
        rw [link_eq P N hP, Option.bind_some, setPlace, List.length_set, if_neg (by omega), if_pos (labelOf_ne raw), setPlace, List.length_set,
          List.set_comm _ _ h1]
      · rw [placeOf_iff, List.length_set, List.getElem?_set_ne (by omega)]
        exact ha
    · rw [if_neg hkf] at h
      have hkt : k = true := by simpa using hkf
      have hkind := hk.mp hkt
      by_cases hl : raw.length < 6
      · rw [if_pos hl] at h; cases h
      · rw [if_neg hl] at h
        simp only [Option.bind_eq_some_iff, Option.map_eq_some_iff] at h
        obtain ⟨pr, hpr, er, her, ⟨pr', er', tree, es⟩, ho, rfl⟩ := h
        simp only at hpg hkey hn hin hD hkeyD
        rw [f1] at hpg
        replace hpg := Option.some.inj hpg
        subst hpg
        have hnn : name ≠ [] := hn name (by rw [OForm.allNames]; exact List.mem_cons_self)
        rw [calcId_elem path page name hpne hnn] at hkey hkeyD ho
        have hg := listOf_some _ _ hpr
        have he := listOf_some _ _ her
        have htidy := hT raw (allElems_self depth raw)
        have hb2 : insideRef (pageId path page ++ '/' :: name) = inside (pageId path page ++ '/' :: name) := hI _ hkeyD
        obtain ⟨o, o1, o2⟩ := panel_rt (shown P N) P N D depth ih (inside (pageId path page ++ '/' :: name)) (pageId path page ++ '/' :: name) pr er pr' er'
          tree es ho (htidy.pages hkind pr hg) (htidy.elems hkind er he) (fun r hr => hT r (allElems_inner depth raw er r hkind he hr))
          (fun t ht => hn t (by rw [OForm.allNames]; exact List.mem_cons_of_mem _ (List.mem_append_left _ ht))) hin hD rfl hb2 (last + 1)
        obtain ⟨l2, hl2⟩ := get2_at raw 2 1 _ hg
        have hraw2 : set2 raw 2 1 (.list pr') = raw.set 2 (.list (l2.set 1 (.list pr'))) := by rw [set2, hl2]
        have hl2b : ∃ x, l2[1]? = some x := ⟨_, by rw [get2, hl2] at hg; exact hg⟩
        obtain ⟨_, hl2x⟩ := hl2b
        have hl2l : 1 < l2.length := (List.getElem?_eq_some_iff.mp hl2x).1
        have q1 : ∀ pl : Val, (((set2 raw 2 1 (.list pr')).set (raw.length - 1) (.list er')).set (raw.length - 3) pl)[1]? = some idv := by
          intro pl
          rw [List.getElem?_set_ne (by omega), List.getElem?_set_ne (by omega), set2_ne _ _ _ _ _ (by omega)]
          exact f3
        have q2 : ∀ pl : Val, get2 (((set2 raw 2 1 (.list pr')).set (raw.length - 1) (.list er')).set (raw.length - 3) pl) 2 1 = some (.list pr') := by
          intro pl
          rw [get2_set _ _ _ _ _ (by omega), get2_set _ _ _ _ _ (by omega)]
          exact get2_set2 raw 2 1 _ _ hg
        have q3 : ∀ pl : Val, fromEnd (((set2 raw 2 1 (.list pr')).set (raw.length - 1) (.list er')).set (raw.length - 3) pl) 1 = some (.list er') := by
          intro pl
          rw [fromEnd, List.length_set, List.length_set, set2_length, if_pos (by omega), List.getElem?_set_ne (by omega),
            List.getElem?_set_self (by rw [set2_length]; omega)]
        have q4 : ∀ pl : Val, (((set2 raw 2 1 (.list pr')).set (raw.length - 1) (.list er')).set (raw.length - 3) pl).length = raw.length := by
          intro pl
          rw [List.length_set, List.length_set, set2_length]
        have hsp : setPlace ((set2 raw 2 1 (.list pr')).set (raw.length - 1) (.list er')) a1 =
            ((set2 raw 2 1 (.list pr')).set (raw.length - 1) (.list er')).set (raw.length - 3) (.list a1) := by
          rw [setPlace, List.length_set, set2_length]
        rw [hsp] at hkey
        refine ⟨(set2 (raw.set 1 (.str (showNat (last + 1)))) 2 1 (.list o.1)).set (raw.length - 1) (.list o.2.1), o.2.2.1,
          (shown P N idv).toList.map (fun a => (showNat (last + 1), a)) ++ o.2.2.2, ?_, ?_, ?_⟩
        · rw [renumElem, f3, Option.bind_some]
          simp only
          rw [if_neg (by rw [hkind]; simp), hg, listOf, Option.bind_some, he, listOf, Option.bind_some, o1]
          rfl
        · rw [elemIn, hkey, Option.bind_some, Entry.asElem, Option.bind_some]
          simp only
          rw [link_eq P N hP, Option.bind_some, q4, if_neg (by omega), if_neg (by simp), if_neg, q2, listOf, Option.bind_some, q3, listOf,
            Option.bind_some, calcId_nested _ _ (pageId_ne path page hpne) hnn, o2, Option.map_some,
            panel_sets raw l2 _ _ _ _ _ _ (by omega) hl2]
          · rw [setPlace, List.length_set, set2_length, List.length_set]
          · intro hc
            rcases hc with hc | hc
            · rw [listId, q1] at hc
              cases idv with
              | list l => exact hashable_list l _ f4 rfl
              | none => cases hc
              | str _ => cases hc
            · omega
        · rw [placeOf_iff, List.length_set, set2_length, List.length_set, List.getElem?_set_ne (by omega), set2_ne _ _ _ _ _ (by omega),
            List.getElem?_set_ne (by omega)]
          rw [placeOf_iff] at ha
          exact ha

end V8.OAuto
