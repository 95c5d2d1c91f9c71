import Verif.OFormAutoTree
import Verif.OFormWhole
/-
A whole ordinary form with the option auto_include comes back numbered anew.
-/
namespace V8.OAuto
open V8.Brace V8.Dec
open V8.Form (count countAt dictGet marker nonEmpty calcOffset truthy Rec countAt_congr countAt_some idx nameAt dictGet_mem dictGet_some hashable seq)
open V8.OForm hiding formOut formIn elemOut elemIn elemsOut elemsIn elemsLoop elem_rt

/-! ### attributes -/

theorem dictGet_map {α β γ : Type} [DecidableEq α] (g : β → γ) (L : List (α × β)) (k : α) :
    dictGet (L.map (fun p => (p.1, g p.2))) k = (dictGet L k).map g := by
  rw [dictGet, dictGet, ← List.map_reverse, List.find?_map, Option.map_map, Option.map_map]
  rfl

theorem attrsLoop_ids (ni : Nat) : ∀ (n : Nat) (l : List Val) (as : List Rec), attrsLoop ni n l = some as →
    (l.take n).filterMap (fun v => (idx v 0).bind (idx · 0)) = as.map (·.id)
  | 0, l, as, h => by
    rw [attrsLoop] at h
    cases h
    rw [List.take_zero]
    rfl
  | n + 1, [], as, h => by cases h
  | n + 1, v :: r, as, h => by
    rw [attrsLoop] at h
    cases h1 : attrOut ni v with
    | none => rw [h1] at h; cases h
    | some a =>
      cases h2 : attrsLoop ni n r with
      | none => rw [h1, h2] at h; cases h
      | some as' =>
        rw [h1, h2] at h
        cases h
        have ih := attrsLoop_ids ni n r as' h2
        rw [attrOut] at h1
        cases h3 : nameAt v ni with
        | none => rw [h3] at h1; cases h1
        | some x =>
          cases h4 : (idx v 0).bind (idx · 0) with
          | none => rw [h3, h4] at h1; cases h1
          | some y =>
            rw [h3, h4] at h1
            cases h1
            rw [List.take_succ_cons, List.filterMap_cons, h4]
            simp only [List.map_cons]
            rw [ih]

theorem linksLoop_is (I : List (Val × Text)) : ∀ (n : Nat) (l : List Val) (P : List (Val × Text)), linksLoop I n l = some P →
    P = ((l.take n).filterMap linkPair).filterMap (fun p => (dictGet I p.2).map (fun t => (p.1, t)))
  | 0, l, P, h => by
    rw [linksLoop] at h
    cases h
    rw [List.take_zero]
    rfl
  | n + 1, [], P, h => by cases h
  | n + 1, v :: r, P, h => by
    rw [linksLoop] at h
    cases h1 : idx v 0 with
    | none => rw [h1] at h; cases h
    | some e =>
      cases h2 : ((idx v 1).bind (idx · 1)).bind (idx · 0) with
      | none => rw [h1, h2] at h; cases h
      | some a =>
        cases h3 : linksLoop I n r with
        | none => rw [h1, h2, h3] at h; cases h
        | some rest =>
          rw [h1, h2, h3] at h
          simp only at h
          have ih := linksLoop_is I n r rest h3
          have hp : linkPair v = some (e, a) := by rw [linkPair, h1, Option.bind_some, h2]; rfl
          rw [List.take_succ_cons, List.filterMap_cons, hp]
          simp only
          rw [List.filterMap_cons]
          by_cases ha : hashable a = false
          · rw [if_pos ha] at h; cases h
          · rw [if_neg ha] at h
            cases hd : dictGet I a with
            | none => rw [hd] at h; cases h; simp only [hd, Option.map_none]; exact ih
            | some name =>
              rw [hd] at h
              simp only at h
              by_cases he : hashable e = false
              · rw [if_pos he] at h; cases h
              · rw [if_neg he] at h
                cases h
                simp only [hd, Option.map_some]
                rw [← ih]

/-- the attributes have different names and different identifiers that are not empty -/
structure TidyAttrs (attrs : Option (List Rec)) : Prop where
  ids : ∀ l, attrs = some l → ∀ a ∈ l, truthy a.id = true
  idsNodup : ∀ l, attrs = some l → (l.map (·.id)).Nodup
  names : ∀ l, attrs = some l → ∀ a ∈ l, a.name ≠ []
  namesNodup : ∀ l, attrs = some l → (l.map (·.name)).Nodup

theorem truthy_text (v : Val) (h1 : truthy v = true) (h2 : hashable v = true) : ∃ c t, v = .str (c :: t) := by
  cases v with
  | none => cases h1
  | list _ => cases h2
  | str s =>
    cases s with
    | nil => rw [truthy] at h1; simp at h1
    | cons c t => exact ⟨c, t, rfl⟩

theorem nonEmpty_ne (t : Text) (h : t ≠ []) : nonEmpty (some t) = some t := by
  cases t with
  | nil => exact absurd rfl h
  | cons c r => rfl

theorem filter_as_map (I : List (Val × Text)) (ids : List Val) (h : ∀ a, (dictGet I a).isSome = true ↔ a ∈ ids) : ∀ (L : List (Val × Val)),
    L.filterMap (fun p => (dictGet I p.2).map (fun t => (p.1, t))) =
      (L.filter (fun p => decide (p.2 ∈ ids))).map (fun p => (p.1, (dictGet I p.2).getD []))
  | [] => rfl
  | p :: r => by
    rw [List.filterMap_cons, List.filter_cons, filter_as_map I ids h r]
    by_cases hm : p.2 ∈ ids
    · have := (h p.2).mpr hm
      rw [Option.isSome_iff_exists] at this
      obtain ⟨t, ht⟩ := this
      rw [ht, if_pos (decide_eq_true hm), List.map_cons, ht]
      rfl
    · have : dictGet I p.2 = none := by
        cases hd : dictGet I p.2 with
        | none => rfl
        | some t => exact absurd ((h p.2).mp (by rw [hd]; rfl)) hm
      rw [this, if_neg (by simpa using hm)]
      rfl

/-- what the two tables of the program give is the attribute of the form -/
theorem shown_is (ni : Nat) (raw al al' ls : List Val) (attrs : Option (List Rec)) (P : List (Val × Text)) (hal : get2 raw 2 2 = some (.list al))
    (hls : get2 raw 2 3 = some (.list ls)) (ha : attrsOut ni al = some (al', attrs)) (hP : elemProps attrs (some (.list ls)) = some P)
    (ht : TidyAttrs attrs) : (∀ v, shown P (attrsByName attrs) v = attrOf raw v) ∧
      ∀ e ∈ P, ∀ p, nonEmpty (some e.2) = some p → (textOf (dictGet (attrsByName attrs) p)).isSome = true := by
  rw [attrsOut] at ha
  cases hc : countAt al 0 with
  | none => rw [hc] at ha; cases ha
  | some n =>
    rw [hc] at ha
    cases n with
    | zero =>
      cases ha
      cases hP
      refine ⟨fun v => ?_, fun e he => absurd he List.not_mem_nil⟩
      have hids : attrIds raw = [] := by
        rw [attrIds, hal, counted, hc]
        rfl
      have hf : ∀ L : List (Val × Val), L.filter (fun l => decide (l.2 ∈ ([] : List Val))) = [] := by
        intro L
        rw [List.filter_eq_nil_iff]
        intro x _
        simp
      rw [attrOf, hids, hf]
      rfl
    | succ n =>
      simp only at ha
      cases hl : attrsLoop ni (n + 1) (al.drop 1) with
      | none => rw [hl] at ha; cases ha
      | some l =>
        rw [hl] at ha
        cases ha
        have hids : attrIds raw = l.map (·.id) := by
          rw [attrIds, hal, counted, hc]
          exact attrsLoop_ids ni _ _ _ hl
        obtain ⟨_, hlen, _⟩ := attrsLoop_rt ni _ _ _ hl
        rw [elemProps.eq_def] at hP
        simp only at hP
        rw [if_neg (by intro e; rw [e] at hlen; cases hlen)] at hP
        by_cases hall : l.all (fun a => hashable a.id) = false
        · rw [if_pos hall] at hP; cases hP
        · rw [if_neg hall] at hP
          have hhash : ∀ a ∈ l, hashable a.id = true := by
            have : l.all (fun a => hashable a.id) = true := by simpa using hall
            exact fun a ha => List.all_eq_true.mp this a ha
          simp only [Option.bind_some, seq] at hP
          cases hn : countAt ls 0 with
          | none => rw [hn] at hP; cases hP
          | some m =>
            rw [hn] at hP
            simp only at hP
            have hPe := linksLoop_is _ _ _ _ hP
            have hlk : links raw = ((ls.drop 1).take m).filterMap linkPair := by rw [links, hls, counted, hn]
            rw [← hlk] at hPe
            have hI : ((l.map (fun a => (a.id, a.name))).map (·.1)).Nodup := by
              rw [List.map_map]
              exact ht.idsNodup l rfl
            have hN : ((attrsByName (some l)).map (·.1)).Nodup := by
              rw [attrsByName, List.map_map]
              exact ht.namesNodup l rfl
            have hIget : ∀ a ∈ l, dictGet (l.map (fun a => (a.id, a.name))) a.id = some a.name := fun a ha =>
              dictGet_mem _ hI (a.id, a.name) (List.mem_map.mpr ⟨a, ha, rfl⟩)
            have hNget : ∀ a ∈ l, dictGet (attrsByName (some l)) a.name = some a.id := fun a ha =>
              dictGet_mem _ hN (a.name, a.id) (List.mem_map.mpr ⟨a, ha, rfl⟩)
            have hiff : ∀ a, (dictGet (l.map (fun a => (a.id, a.name))) a).isSome = true ↔ a ∈ attrIds raw := by
              intro a
              rw [hids]
              constructor
              · intro h
                rw [Option.isSome_iff_exists] at h
                obtain ⟨t, h⟩ := h
                obtain ⟨r, hr, he⟩ := List.mem_map.mp (dictGet_some _ _ _ h)
                exact List.mem_map.mpr ⟨r, hr, (Prod.mk.inj he).1⟩
              · intro h
                obtain ⟨r, hr, he⟩ := List.mem_map.mp h
                rw [← he, hIget r hr]
                rfl
            rw [filter_as_map _ _ hiff] at hPe
            refine ⟨fun v => ?_, ?_⟩
            · rw [shown, attrOf, hPe]
              have hm := dictGet_map (fun a : Val => (dictGet (l.map (fun a => (a.id, a.name))) a).getD [])
                ((links raw).filter (fun p => decide (p.2 ∈ attrIds raw))) v
              rw [hm]
              cases hd : dictGet ((links raw).filter (fun p => decide (p.2 ∈ attrIds raw))) v with
              | none => rfl
              | some a =>
                have hma := dictGet_some _ _ _ hd
                have hmi : a ∈ attrIds raw := by
                  have := (List.mem_filter.mp hma).2
                  simpa using this
                rw [hids] at hmi
                obtain ⟨r, hr, rfl⟩ := List.mem_map.mp hmi
                rw [Option.map_some, hIget r hr, Option.getD_some, nonEmpty_ne _ (ht.names l rfl r hr), Option.bind_some, hNget r hr]
                obtain ⟨c, t, he⟩ := truthy_text r.id (ht.ids l rfl r hr) (hhash r hr)
                rw [he]
                rfl
            · intro e he p hp
              rw [hPe] at he
              obtain ⟨x, hx, rfl⟩ := List.mem_map.mp he
              have hmi : x.2 ∈ attrIds raw := by
                have := (List.mem_filter.mp hx).2
                simpa using this
              rw [hids] at hmi
              obtain ⟨r, hr, hre⟩ := List.mem_map.mp hmi
              simp only at hp
              rw [← hre, hIget r hr, Option.getD_some, nonEmpty_ne _ (ht.names l rfl r hr)] at hp
              cases hp
              rw [hNget r hr]
              obtain ⟨c, t, he⟩ := truthy_text r.id (ht.ids l rfl r hr) (hhash r hr)
              rw [he]
              rfl

/-! ### the form -/

theorem set2_twice (raw : List Val) (i j : Nat) (v w : Val) : set2 (set2 raw i j v) i j w = set2 raw i j w := by
  rw [set2, set2]
  cases hr : raw[i]? with
  | none => simp only; rw [set2, hr]
  | some x =>
    cases x with
    | none => simp only; rw [set2, hr]
    | str _ => simp only; rw [set2, hr]
    | list l =>
      simp only
      have hlt := (List.getElem?_eq_some_iff.mp hr).1
      rw [List.getElem?_set_self hlt]
      simp only
      rw [List.set_set, List.set_set, set2, hr]

theorem form_rt (ni depth : Nat) (raw raw' : List Val) (src : Src) (h : formOut ni depth raw = some (raw', src))
    (main : ∀ panel, get2 raw 1 2 = some (.list panel) → (∀ pr, get2 panel 1 1 = some (.list pr) → TidyPages pr) ∧
      ∀ er, panel[2]? = some (.list er) → TidyList er ∧ ∀ r ∈ allElems depth er, TidyElem r)
    (names : ∀ t ∈ OForm.allNames src.tree, t ≠ []) (paths : (src.data.map (·.1)).Nodup) (attrs : TidyAttrs src.attrs)
    (hlinks : ∃ ls, get2 raw 2 3 = some (.list ls)) (hinside : ∀ e ∈ src.data, insideRef e.1 = inside e.1) :
    ∃ out, renumForm (attrOf raw) depth raw = some out ∧ formIn depth raw' src = some out := by
  obtain ⟨ls, hls⟩ := hlinks
  rw [formOut] at h
  simp only [Option.bind_eq_some_iff] at h
  obtain ⟨al, hal, ⟨al', at'⟩, hat, panel, hpanel, h⟩ := h
  by_cases hk : panel[0]? ≠ some (.str panelKind)
  · rw [if_pos hk] at h; cases h
  · rw [if_neg hk] at h
    simp only [Option.bind_eq_some_iff, Option.map_eq_some_iff] at h
    obtain ⟨P, hP, pr, hpr, er, her, ⟨pr', er', tree, es⟩, hout, heq⟩ := h
    simp only [Prod.mk.injEq] at heq
    obtain ⟨rfl, rfl⟩ := heq
    simp only at names paths attrs hinside
    have hal := listOf_some _ _ hal
    have hpanel := listOf_some _ _ hpanel
    have hpr := listOf_some _ _ hpr
    have her := listOf_some _ _ her
    have h23 : get2 (set2 raw 2 2 (.list al')) 2 3 = some (.list ls) := by
      obtain ⟨l2, h2⟩ := get2_at raw 2 2 _ hal
      rw [set2, h2]
      simp only
      rw [get2, List.getElem?_set_self (List.getElem?_eq_some_iff.mp h2).1]
      simp only
      rw [List.getElem?_set_ne (by omega)]
      rw [get2, h2] at hls
      exact hls
    rw [h23] at hP
    obtain ⟨s1, s2⟩ := shown_is ni raw al al' ls at' P hal hls hat hP attrs
    obtain ⟨m1, m2⟩ := main panel hpanel
    obtain ⟨m3, m4⟩ := m2 er her
    have hE := elem_rt P (attrsByName at') es s2 hinside depth
    have hsh : shown P (attrsByName at') = attrOf raw := funext s1
    rw [hsh] at hE
    obtain ⟨o, o1, o2⟩ := panel_rt (attrOf raw) P (attrsByName at') es depth hE [] [] pr er pr' er' tree es hout (m1 pr hpr) m3 m4 names paths
      (fun e he => dictGet_mem es paths e he) rfl rfl 1
    refine ⟨set2 (set2 raw 1 2 (.list ((set2 panel 1 1 (.list o.1)).set 2 (.list o.2.1)))) 2 3
        (.list (.str (showNat o.2.2.2.length) :: o.2.2.2.map linkVal)), ?_, ?_⟩
    · rw [renumForm, hpanel, listOf, Option.bind_some, hpr, listOf, Option.bind_some, her, listOf, Option.bind_some, o1]
      rfl
    · have q1 : get2 (set2 (set2 raw 2 2 (.list al')) 1 2 (.list ((set2 panel 1 1 (.list pr')).set 2 (.list er')))) 2 2 = some (.list al') := by
        rw [get2_set2_ne _ _ _ _ _ _ (by omega)]
        exact get2_set2 raw 2 2 _ _ hal
      have q2 : get2 (set2 (set2 raw 2 2 (.list al')) 1 2 (.list ((set2 panel 1 1 (.list pr')).set 2 (.list er')))) 1 2 =
          some (.list ((set2 panel 1 1 (.list pr')).set 2 (.list er'))) := by
        apply get2_set2 _ 1 2 (.list panel)
        rw [get2_set2_ne _ _ _ _ _ _ (by omega)]
        exact hpanel
      have q3 : get2 ((set2 panel 1 1 (.list pr')).set 2 (.list er')) 1 1 = some (.list pr') := by
        rw [get2_set _ _ _ _ _ (by omega)]
        exact get2_set2 panel 1 1 _ _ hpr
      have q4 : ((set2 panel 1 1 (.list pr')).set 2 (.list er'))[2]? = some (.list er') := by
        apply List.getElem?_set_self
        rw [set2_length]
        exact (List.getElem?_eq_some_iff.mp her).1
      have q5 : (get2 (set2 (set2 raw 2 2 (.list al')) 1 2 (.list ((set2 panel 1 1 (.list pr')).set 2 (.list er')))) 2 3).isNone = false := by
        rw [get2_set2_ne _ _ _ _ _ _ (by omega), h23]
        rfl
      rw [formIn, q1, listOf, Option.bind_some, attrs_rt ni al al' at' hat, Option.bind_some, q2, listOf, Option.bind_some, q3, listOf,
        Option.bind_some, q4, listOf, Option.bind_some, o2, Option.bind_some, q5]
      simp only [Bool.false_eq_true, if_false]
      congr 2
      rw [set2_comm _ 1 2 2 2 _ _ (by omega), set2_set2 raw 2 2 _ _ hal, set2_twice, set2_set _ _ _ _ _ _ (by omega), set2_twice, List.set_set]

end V8.OAuto
