import Verif.OFormAgain
/-
A form numbered anew is taken apart like the form before: elements and panels.
-/
namespace V8.OAuto
open V8.Brace V8.Dec
open V8.Form (count countAt dictGet marker nonEmpty calcOffset truthy Rec countAt_congr countAt_some idx nameAt dictGet_mem dictGet_some hashable seq)
open V8.OForm hiding formOut formIn elemOut elemIn elemsOut elemsIn elemsLoop elem_rt form_rt

/-! ### the list of the elements -/

/-- a form is taken apart element by element -/
theorem elemsOut_inv (f : Bool → List Val → Option Item) (path : Text) (names : List Text) (er er' : List Val) (tree : List Node) (es : List (Text × Entry))
    (h : elemsOut f path names er = some (er', tree, es)) (hT : TidyList er) :
    ∃ ps : List (List Val × Item), er.drop 1 = ps.map (fun p => .list p.1) ∧ tree = treeOf names (ps.map (·.2)) ∧
      es.map (·.1) = (entriesOf (ps.map (·.2))).map (·.1) ∧
      (∀ p ∈ ps, ∃ u k, p.1[0]? = some (.str u) ∧ isPanel u = some k ∧ f k p.1 = some p.2) ∧
      (((entriesOf (ps.map (·.2))).map (·.1)).Nodup → ∀ p ∈ ps, ∃ a a1, placeOf p.2.raw = some a ∧
        mapRefs (toName (ps.map (fun p => (p.2.id, p.2.key))) path (fun _ => p.2.key.drop path.length)) (toName (ps.map (fun p => (p.2.id, p.2.key))) path id) a =
          some a1) := by
  rw [elemsOut] at h
  cases hc : countAt er 0 with
  | none => rw [hc] at h; cases h
  | some n =>
    have hsize := hT.size n hc
    rw [hc] at h
    cases n with
    | zero =>
      simp only [Option.some.injEq, Prod.mk.injEq] at h
      obtain ⟨rfl, rfl, rfl⟩ := h
      exact ⟨[], List.drop_eq_nil_of_le hsize, rfl, rfl, (fun p hp => absurd hp List.not_mem_nil), fun _ p hp => absurd hp List.not_mem_nil⟩
    | succ n =>
      simp only [Option.bind_eq_some_iff, Option.map_eq_some_iff] at h
      obtain ⟨its, hloop, es3, hna, heq⟩ := h
      simp only [Prod.mk.injEq] at heq
      obtain ⟨rfl, rfl, rfl⟩ := heq
      obtain ⟨ps, hps, rfl, hlen, hf⟩ := elemsLoop_kinds _ _ _ _ hloop
      rw [List.take_of_length_le (by rw [List.length_drop]; omega)] at hps
      refine ⟨ps, hps, rfl, nameAll_keys _ _ _ _ _ hna, hf, ?_⟩
      intro hnd p hp
      obtain ⟨n1, _, _⟩ := entries_nodup _ hnd
      obtain ⟨_, _, s3⟩ := nameAll_spec _ path _ _ _ hna n1
      have hit : p.2 ∈ ps.map (·.2) := List.mem_map.mpr ⟨p, hp, rfl⟩
      obtain ⟨a, a1, r1, r2, _⟩ := s3 p.2.key (List.mem_map.mpr ⟨p.2, hit, rfl⟩) _ _ (dictGet_mem _ hnd _ (entry_own _ p.2 hit))
      rw [List.map_map] at r2
      exact ⟨a, a1, r1, r2⟩

theorem elemsOut_of (f : Bool → List Val → Option Item) (path : Text) (names : List Text) (ps : List (List Val × Item))
    (hk : ∀ p ∈ ps, ∃ u k, p.1[0]? = some (.str u) ∧ isPanel u = some k ∧ f k p.1 = some p.2)
    (hnd : ((entriesOf (ps.map (·.2))).map (·.1)).Nodup)
    (hr : ∀ p ∈ ps, ∃ a a1, placeOf p.2.raw = some a ∧
      mapRefs (toName (ps.map (fun p => (p.2.id, p.2.key))) path (fun _ => p.2.key.drop path.length)) (toName (ps.map (fun p => (p.2.id, p.2.key))) path id) a =
        some a1) :
    ∃ e es, elemsOut f path names (.str (showNat ps.length) :: ps.map (fun p => .list p.1)) = some (e, treeOf names (ps.map (·.2)), es) ∧
      es.map (·.1) = (entriesOf (ps.map (·.2))).map (·.1) := by
  have hloop := elemsLoop_of f ps hk
  rw [elemsOut, countAt_show]
  cases ps with
  | nil => exact ⟨_, _, rfl, rfl⟩
  | cons q r =>
    obtain ⟨n1, _, _⟩ := entries_nodup _ hnd
    obtain ⟨es, hes⟩ := nameAll_ok (((q :: r).map (·.2)).map (fun it => (it.id, it.key))) path (((q :: r).map (·.2)).map (·.key)) (entriesOf ((q :: r).map (·.2))) n1 (by
      intro k hk
      rw [List.map_map] at hk
      obtain ⟨p, hp, rfl⟩ := List.mem_map.mp hk
      obtain ⟨a, a1, h1, h2⟩ := hr p hp
      have hit : p.2 ∈ (q :: r).map (·.2) := List.mem_map.mpr ⟨p, hp, rfl⟩
      refine ⟨p.2.raw, p.2.prop, a, a1, dictGet_mem _ hnd _ (entry_own _ p.2 hit), h1, ?_⟩
      rw [List.map_map]
      exact h2)
    refine ⟨.str marker :: (Val.str (showNat (q :: r).length) :: (q :: r).map (fun p => Val.list p.1)).drop (r.length + 2), es, ?_, nameAll_keys _ _ _ _ _ hes⟩
    rw [List.length_cons] at hloop ⊢
    simp only [List.drop_succ_cons, List.drop_zero]
    rw [hloop, Option.bind_some, hes]
    rfl

/-! ### the shape of an element -/

structure Shape (raw x : List Val) (last : Nat) : Prop where
  size : x.length = raw.length
  kind : x[0]? = raw[0]?
  id : x[1]? = some (.str (showNat (last + 1)))
  place : placeOf x = placeOf raw
  name : fromEnd x 2 = fromEnd raw 2

theorem renum_shape (A : Val → Option Text) (d last : Nat) (raw x : List Val) (m : Nat) (s : List (Text × Text)) (h : renumElem A d last raw = some (x, m, s))
    (ha : Apart raw) : Shape raw x last := by
  have h5 := ha.size
  cases d with
  | zero => cases h
  | succ d =>
    rw [renumElem, Option.bind_eq_some_iff] at h
    obtain ⟨old, _, h⟩ := h
    simp only at h
    by_cases hk : raw[0]? ≠ some (.str panelKind)
    · rw [if_pos hk] at h
      simp only [Option.some.injEq, Prod.mk.injEq] at h
      obtain ⟨rfl, _, _⟩ := h
      refine ⟨by rw [List.length_set], List.getElem?_set_ne (by omega), List.getElem?_set_self (by omega), ?_, ?_⟩
      · rw [placeOf, placeOf, fromEnd, fromEnd, List.length_set, List.getElem?_set_ne (by omega)]
      · rw [fromEnd, fromEnd, List.length_set, List.getElem?_set_ne (by omega)]
    · rw [if_neg hk] at h
      have h6 := ha.panel (by simpa using hk)
      simp only [Option.bind_eq_some_iff, Option.map_eq_some_iff, Prod.mk.injEq] at h
      obtain ⟨pr, _, er, _, o, _, rfl, _, _⟩ := h
      refine ⟨by rw [List.length_set, set2_length, List.length_set], ?_, ?_, ?_, ?_⟩
      · rw [List.getElem?_set_ne (by omega), set2_ne _ _ _ _ _ (by omega), List.getElem?_set_ne (by omega)]
      · rw [List.getElem?_set_ne (by omega), set2_ne _ _ _ _ _ (by omega)]
        exact List.getElem?_set_self (by omega)
      · rw [placeOf, placeOf, fromEnd, fromEnd, List.length_set, set2_length, List.length_set, List.getElem?_set_ne (by omega), set2_ne _ _ _ _ _ (by omega),
          List.getElem?_set_ne (by omega)]
      · rw [fromEnd, fromEnd, List.length_set, set2_length, List.length_set, List.getElem?_set_ne (by omega), set2_ne _ _ _ _ _ (by omega),
          List.getElem?_set_ne (by omega)]

/-- an element that can be taken apart has the usual shape -/
theorem apart_of (P : List (Val × Text)) (depth : Nat) (path : Text) (names : List Text) (k : Bool) (raw : List Val) (it : Item) (u : Text) (a : List Val)
    (h : elemOut P depth path names k raw = some it) (h0 : raw[0]? = some (.str u)) (hk : isPanel u = some k) (ha : placeOf raw = some a) : Apart raw := by
  rw [placeOf_iff] at ha
  cases depth with
  | zero => cases h
  | succ depth =>
    rw [elemOut] at h
    simp only [Option.bind_eq_some_iff] at h
    obtain ⟨⟨name, page, idv⟩, hh, i, hi, h⟩ := h
    have hid : raw[1]? = some idv ∧ hashable idv = true := by
      rw [headOf] at hh
      cases e1 : (fromEnd raw 2).bind (nameAt · 1) with
      | none => rw [e1] at hh; cases hh
      | some nm =>
        cases e2 : ((fromEnd raw 3).bind seq).bind (fromEnd · 5) with
        | none => rw [e1, e2] at hh; cases hh
        | some pv =>
          cases e3 : raw[1]? with
          | none => rw [e1, e2, e3] at hh; cases hh
          | some v =>
            rw [e1, e2, e3] at hh
            simp only at hh
            by_cases hb : hashable v = false
            · rw [if_pos hb] at hh; cases hh
            · rw [if_neg hb, Option.map_eq_some_iff] at hh
              obtain ⟨_, _, hh⟩ := hh
              simp only [Prod.mk.injEq] at hh
              rw [← hh.2.2]
              exact ⟨rfl, by simpa using hb⟩
    have n0 : raw.length - 3 ≠ 0 := by
      intro e
      rw [e, h0] at ha
      cases ha.2
    have n1 : raw.length - 3 ≠ 1 := by
      intro e
      rw [e, hid.1] at ha
      have := ha.2
      injection this with this
      exact hashable_list a idv hid.2 this
    refine ⟨by omega, fun hp => ?_⟩
    have hu : u = panelKind := by
      rw [h0] at hp
      injection hp with hp
      injection hp
    have hkt : k = true := (isPanel_iff u k hk).mpr hu
    rw [hkt, if_neg (by simp)] at h
    by_cases hl : raw.length < 6
    · rw [if_pos hl] at h; cases h
    · omega

/-- the head of an element numbered anew, wherever its references go -/
theorem head_again (path : Text) (names : List Text) (raw x : List Val) (name page : Text) (idv : Val) (i last : Nat) (a b : List Val)
    (h : headOf names raw = some (name, page, idv)) (hi : pageIndex path names page = some i) (hne : ∀ t ∈ names, t ≠ []) (ha : placeOf raw = some a)
    (hs : Shape raw x last) (h5 : Apart raw) (hb : b.map textIn = a.map textIn) :
    headOf names (setPlace x b) = some (name, page, .str (showNat (last + 1))) := by
  have hpi := pageIndex_some path names page i hi hne
  have hpne := hne page (List.mem_of_getElem? hpi)
  have h5 := h5.size
  have hlen : (setPlace x b).length = raw.length := by rw [setPlace, List.length_set, hs.size]
  have e3 : fromEnd (setPlace x b) 3 = some (.list b) := by
    have := placeOf_set x a b (by rw [hs.place]; exact ha)
    rw [placeOf_iff] at this
    rw [fromEnd, if_pos this.1]
    exact this.2
  have e2 : fromEnd (setPlace x b) 2 = fromEnd raw 2 := by
    rw [← hs.name, fromEnd, fromEnd, hlen, hs.size, setPlace, hs.size, List.getElem?_set_ne (by omega)]
  have e1 : (setPlace x b)[1]? = some (.str (showNat (last + 1))) := by
    rw [setPlace, hs.size, List.getElem?_set_ne (by omega)]
    exact hs.id
  have f3 : fromEnd raw 3 = some (.list a) := by
    rw [placeOf_iff] at ha
    rw [fromEnd, if_pos ha.1]
    exact ha.2
  rw [headOf, f3] at h
  rw [headOf, e2, e3, e1]
  cases h1 : (fromEnd raw 2).bind (nameAt · 1) with
  | none => rw [h1] at h; cases h
  | some nm =>
    rw [h1] at h
    have s1 : ((some (Val.list a)).bind seq).bind (fun x => fromEnd x 5) = fromEnd a 5 := rfl
    have s2 : ((some (Val.list b)).bind seq).bind (fun x => fromEnd x 5) = fromEnd b 5 := rfl
    rw [s1] at h
    rw [s2]
    cases h2 : fromEnd a 5 with
    | none => rw [h2] at h; cases h
    | some pg =>
      cases h3 : raw[1]? with
      | none => rw [h2, h3] at h; cases h
      | some v =>
        rw [h2, h3] at h
        simp only at h
        by_cases hh : hashable v = false
        · rw [if_pos hh] at h; cases h
        · rw [if_neg hh, Option.map_eq_some_iff] at h
          obtain ⟨p, hp, he⟩ := h
          simp only [Prod.mk.injEq] at he
          obtain ⟨rfl, rfl, _⟩ := he
          obtain ⟨t, n, j, rfl, _⟩ := pageName_no names pg p hp hpne
          have ht := fromEnd_text a b 5 hb
          rw [h2, Option.bind_some] at ht
          have hb5 : fromEnd b 5 = some (.str t) := by
            cases hb5 : fromEnd b 5 with
            | none => rw [hb5] at ht; cases ht
            | some w =>
              rw [hb5, Option.bind_some] at ht
              cases w with
              | none => cases ht
              | list _ => cases ht
              | str u =>
                have := Option.some.inj ht
                rw [this]
          rw [hb5]
          simp only
          rw [if_neg (by simp [hashable]), hp]
          rfl

theorem allElems_inv (d : Nat) (er : List Val) (r : List Val) (h : r ∈ allElems d er) : ∃ raw, Val.list raw ∈ er ∧ r ∈ allElems d [.list raw] := by
  cases d with
  | zero => cases h
  | succ d =>
    rw [allElems, List.mem_flatMap] at h
    obtain ⟨raw, hr, hm⟩ := h
    refine ⟨raw, (listsOf_mem er raw).mp hr, ?_⟩
    rw [allElems, List.mem_flatMap]
    exact ⟨raw, (listsOf_mem _ raw).mpr List.mem_cons_self, hm⟩

theorem allElems_one (d : Nat) (raw r : List Val) (h : r ∈ allElems (d + 1) [.list raw]) :
    r = raw ∨ ∃ er, raw[0]? = some (.str panelKind) ∧ fromEnd raw 1 = some (.list er) ∧ r ∈ allElems d er := by
  rw [allElems, List.mem_flatMap] at h
  obtain ⟨raw', hr, hm⟩ := h
  have : raw' = raw := by
    have := (listsOf_mem _ raw').mp hr
    rcases List.mem_cons.mp this with h | h
    · injection h
    · cases h
  subst this
  rcases List.mem_cons.mp hm with h | h
  · exact .inl h
  · by_cases hk : raw'[0]? = some (.str panelKind)
    · rw [if_pos hk] at h
      cases hf : fromEnd raw' 1 with
      | none => rw [hf] at h; cases h
      | some v =>
        cases v with
        | none => rw [hf] at h; cases h
        | str _ => rw [hf] at h; cases h
        | list er => rw [hf] at h; exact .inr ⟨er, hk, rfl, h⟩
    · rw [if_neg hk] at h; cases h

end V8.OAuto
