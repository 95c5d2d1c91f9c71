import Verif.FormLemmas
/-
Lemmas about attributes, commands and parameters of a managed form, and about the whole form.
-/
namespace V8.Form
open V8.Brace V8.Dec V8.Module

/-! ### the slots of a form -/

/-- taking out and putting back one entry of a slot -/
def Inv {α : Type} (f : Val → Val × Option α) (g : α → Option Val) (v : Val) : Prop := ∀ v' a, f v = (v', some a) → g a = some v

theorem loop_rt {α : Type} (f : Val → Val × Option α) (g : α → Option Val) : ∀ (n : Nat) (l l' : List Val) (as : List α),
    rootLoop f n l = (l', some as) → (∀ v ∈ l, Inv f g v) →
    mapAll g as = some (l.take n) ∧ as.length = n ∧ l'.drop n = l.drop n
  | 0, l, l', as, h, _ => by
    rw [rootLoop] at h
    obtain ⟨rfl, h⟩ := Prod.mk.inj h
    cases h
    exact ⟨rfl, rfl, rfl⟩
  | n + 1, [], l', as, h, _ => by
    rw [rootLoop] at h
    cases (Prod.mk.inj h).2
  | n + 1, v :: r, l', as, h, hi => by
    rw [rootLoop] at h
    cases hv : f v with
    | mk v' o =>
      rw [hv] at h
      cases o with
      | none => cases (Prod.mk.inj h).2
      | some a =>
        simp only at h
        cases hr : rootLoop f n r with
        | mk r' o' =>
          rw [hr] at h
          cases o' with
          | none => cases (Prod.mk.inj h).2
          | some as' =>
            obtain ⟨rfl, h2⟩ := Prod.mk.inj h
            cases h2
            obtain ⟨r1, r2, r3⟩ := loop_rt f g n r r' as' hr (fun v hv => hi v (List.mem_cons_of_mem _ hv))
            have := hi v List.mem_cons_self v' a hv
            refine ⟨?_, by rw [List.length_cons, r2], by rw [List.drop_succ_cons, List.drop_succ_cons, r3]⟩
            rw [mapAll, this, r1]
            rfl

/-- the slot of a form can be looked into, and does not already hold the word that stands for taken out entries -/
def SlotOk (raw : List Val) (i : Nat) : Prop := ∀ v, raw[i]? = some v → ∃ m, idx v 1 = some m ∧ m ≠ .str marker

theorem slotOut_ne {α : Type} (f : Val → Val × Option α) (i : Nat) (raw : List Val) (j : Nat) (h : j ≠ i) :
    (slotOut f i raw).1[j]? = raw[j]? := by
  rw [slotOut]
  cases raw[i]? with
  | none => rfl
  | some v => exact List.getElem?_set_ne (Ne.symm h)

theorem marker_ne (n : Nat) : Val.str marker ≠ .str (showNat n) := by
  intro h
  have h1 : marker = showNat n := by injection h
  have h2 := count_show n
  rw [← h1] at h2
  have : count (.str marker) = none := by decide +kernel
  rw [this] at h2
  cases h2

theorem slot_rt {α : Type} (f : Val → Val × Option α) (g : α → Option Val) (i : Nat) (raw raw' : List Val)
    (hi : ∀ v, raw[i]? = some (.list v) → ∀ x ∈ v, Inv f g x) (hok : SlotOk raw i)
    (hnone : (slotOut f i raw).2 = none → (slotOut f i raw).1[i]? = raw[i]?)
    (he : raw'[i]? = (slotOut f i raw).1[i]?) :
    ∃ r, slotIn g i (slotOut f i raw).2 raw' = some (r, (slotOut f i raw).2) ∧ r[i]? = raw[i]? ∧ ∀ j, j ≠ i → r[j]? = raw'[j]? := by
  cases hv : raw[i]? with
  | none =>
    have h1 : slotOut f i raw = (raw, none) := by rw [slotOut, hv]
    rw [h1] at he ⊢
    have he : raw'[i]? = none := by rw [he]; exact hv
    refine ⟨raw', ?_, he, fun _ _ => rfl⟩
    rw [slotIn, he]
  | some items =>
    have hil : i < raw.length := by rw [List.getElem?_eq_some_iff] at hv; exact hv.1
    have h1 : slotOut f i raw = (raw.set i (rootOut f items).1, (rootOut f items).2) := by rw [slotOut, hv]
    rw [h1] at he hnone ⊢
    simp only at he hnone ⊢
    rw [List.getElem?_set_self hil] at he hnone
    cases ho : (rootOut f items).2 with
    | none =>
      have := hnone ho
      rw [this, hv] at he
      obtain ⟨m, hm1, hm2⟩ := hok items hv
      refine ⟨raw', ?_, he, fun _ _ => rfl⟩
      rw [slotIn, he]
      simp only [hm1]
      rw [if_neg hm2]
    | some as =>
      have hx := ho
      have hshape : ∃ v0 t r n r', items = .list (v0 :: .str t :: r) ∧ count (.str t) = some (n + 1) ∧
          rootLoop f (n + 1) r = (r', some as) ∧ (rootOut f items).1 = .list (v0 :: .str marker :: r'.drop (n + 1)) := by
        revert ho
        fun_cases rootOut f items with
        | case1 v0 t r n hc r' hl => intro h; cases h
        | case2 v0 t r n hc r' as' hl => intro h; cases h; exact ⟨v0, t, r, n, r', rfl, hc, hl, rfl⟩
        | case3 => intro h; cases h
        | case4 => intro h; cases h
      obtain ⟨v0, t, r, n, r', rfl, hc, hl, hout⟩ := hshape
      rw [hout] at he
      obtain ⟨r1, r2, r3⟩ := loop_rt f g (n + 1) r r' as hl (fun v hm => hi _ hv v (List.mem_cons_of_mem _ (List.mem_cons_of_mem _ hm)))
      have hi' : i < raw'.length := by rw [List.getElem?_eq_some_iff] at he; exact he.1
      cases as with
      | nil => cases r2
      | cons a as =>
        refine ⟨raw'.set i (.list (v0 :: .str t :: r)), ?_, ?_, ?_⟩
        · rw [slotIn, he]
          show (if Val.str marker = .str marker then _ else _) = _
          rw [if_pos rfl]
          simp only [r1]
          have ht := count_some _ _ hc
          rw [r2, r3, ← ht]
          show some (raw'.set i (.list (v0 :: .str t :: (r.take (n + 1) ++ r.drop (n + 1)))), _) = _
          rw [List.take_append_drop]
        · rw [List.getElem?_set_self hi']
        · intro j hj
          exact List.getElem?_set_ne (Ne.symm hj)

/-! ### attributes -/

/-- the pattern of an attribute already holds the word that stands for the owner of the form -/
def HoldsWord (pattern : Val) : Prop := ∃ p0 rest more, pattern = .list (p0 :: .list (.str refWord :: .str parentWord :: rest) :: more)

theorem hide_eq (parent : Option Text) (p0 a b : Val) (rest more : List Val) :
    hideParent parent (.list (p0 :: .list (a :: b :: rest) :: more)) = if a = .str refWord then
      (if parent.map Val.str = some b then some (.list (p0 :: .list (a :: .str parentWord :: rest) :: more))
        else some (.list (p0 :: .list (a :: b :: rest) :: more)))
      else some (.list (p0 :: .list (a :: b :: rest) :: more)) := rfl

theorem show_eq (parent : Option Text) (p0 a b : Val) (rest more : List Val) :
    showParent parent (.list (p0 :: .list (a :: b :: rest) :: more)) = if a = .str refWord then
      (if b = .str parentWord then (match parent with
          | some (c :: u) => some (.list (p0 :: .list (a :: .str (c :: u) :: rest) :: more))
          | _ => some (.list (p0 :: .list (a :: b :: rest) :: more)))
        else some (.list (p0 :: .list (a :: b :: rest) :: more)))
      else some (.list (p0 :: .list (a :: b :: rest) :: more)) := rfl

theorem parent_rt (parent : Option Text) (pattern pattern' : Val) (hp : parent ≠ some []) (hw : ¬ HoldsWord pattern)
    (h : hideParent parent pattern = some pattern') : showParent parent pattern' = some pattern := by
  match pattern, hw, h with
  | .none, _, h => cases h; rfl
  | .str _, _, h => cases h; rfl
  | .list [], _, h => cases h; rfl
  | .list [_], _, h => cases h; rfl
  | .list (p0 :: .none :: more), _, h => cases h
  | .list (p0 :: .str [] :: more), _, h => cases h
  | .list (p0 :: .str (c :: t) :: more), _, h => cases h; rfl
  | .list (p0 :: .list [] :: more), _, h => cases h
  | .list (p0 :: .list [a] :: more), _, h =>
    by_cases ha : a = .str refWord
    · rw [hideParent, if_pos ha] at h; cases h
    · rw [hideParent, if_neg ha] at h; cases h
      rw [showParent, if_neg ha]
  | .list (p0 :: .list (a :: b :: rest) :: more), hw, h =>
    rw [hide_eq] at h
    by_cases ha : a = .str refWord
    · rw [if_pos ha] at h
      by_cases hb : parent.map Val.str = some b
      · rw [if_pos hb] at h
        cases h
        rw [show_eq, if_pos ha, if_pos rfl]
        cases parent with
        | none => cases hb
        | some u =>
          cases u with
          | nil => exact absurd rfl hp
          | cons c u => cases hb; rfl
      · rw [if_neg hb] at h
        cases h
        have hbw : b ≠ .str parentWord := by
          intro e
          exact hw ⟨p0, rest, more, by rw [e, ha]⟩
        rw [show_eq, if_pos ha, if_neg hbw]
    · rw [if_neg ha] at h; cases h
      rw [show_eq, if_neg ha]

theorem childRecs_map : ∀ (n : Nat) (l : List Val) (cs : List Child), childRecs n l = some cs → cs.map (·.raw) = l.take n ∧ cs.length = n
  | 0, l, cs, h => by cases h; exact ⟨rfl, rfl⟩
  | n + 1, [], cs, h => by cases h
  | n + 1, v :: r, cs, h => by
    rw [childRecs] at h
    cases hv : childRec v with
    | none => rw [hv] at h; cases h
    | some c =>
      cases hr : childRecs n r with
      | none => rw [hv, hr] at h; cases h
      | some cs' =>
        rw [hv, hr] at h
        cases h
        obtain ⟨h1, h2⟩ := childRecs_map n r cs' hr
        have hc : c.raw = v := by
          rw [childRec] at hv
          cases ha : nameAt v 3 with
          | none => rw [ha] at hv; cases hv
          | some nm =>
            cases hb : idx v 1 with
            | none => rw [ha, hb] at hv; cases hv
            | some id => rw [ha, hb] at hv; cases hv; rfl
        exact ⟨by rw [List.map_cons, h1, hc, List.take_succ_cons], by rw [List.length_cons, h2]⟩

/-- an attribute does not already hold the word that stands for the owner of the form -/
def NoWord (v : Val) : Prop := ∀ pattern, idx v 5 = some pattern → ¬ HoldsWord pattern

theorem prop_inv (parent : Option Text) (hp : parent ≠ some []) (v : Val) (hw : NoWord v) : Inv (propOut parent) (propIn parent) v := by
  intro v' p h
  cases v with
  | none => cases h
  | str _ => cases h
  | list raw =>
    rw [propOut] at h
    cases h1 : nameAt (.list raw) 3 with
    | none => rw [h1] at h; cases (Prod.mk.inj h).2
    | some name =>
      cases h2 : (raw[1]?).bind (idx · 0) with
      | none => rw [h1, h2] at h; cases (Prod.mk.inj h).2
      | some id =>
        cases h3 : countAt raw 13 with
        | none => rw [h1, h2, h3] at h; cases (Prod.mk.inj h).2
        | some n =>
          cases h4 : raw[5]? with
          | none => rw [h1, h2, h3, h4] at h; cases (Prod.mk.inj h).2
          | some pattern =>
            rw [h1, h2, h3, h4] at h
            simp only at h
            cases h5 : hideParent parent pattern with
            | none => rw [h5] at h; cases (Prod.mk.inj h).2
            | some pattern' =>
              rw [h5] at h
              simp only at h
              have hs := parent_rt parent pattern pattern' hp (hw pattern h4) h5
              have h13 := countAt_some raw 13 n h3
              have hl13 : 13 < raw.length := by rw [List.getElem?_eq_some_iff] at h13; exact h13.1
              have hback : (raw.set 5 pattern').set 5 pattern = raw := by
                rw [List.set_set]
                have h5' : raw[5]'(by omega) = pattern := by
                  rw [List.getElem?_eq_getElem (by omega)] at h4; exact Option.some.inj h4
                rw [← h5']
                exact List.set_getElem_self (by omega)
              by_cases hn : n = 0
              · rw [if_pos hn] at h
                obtain ⟨_, h⟩ := Prod.mk.inj h
                cases h
                rw [propIn]
                simp only [List.getElem?_set_self (show 5 < raw.length by omega), hs, hback]
              · rw [if_neg hn] at h
                cases h6 : childRecs n ((raw.set 5 pattern').drop 14) with
                | none => rw [h6] at h; cases (Prod.mk.inj h).2
                | some cs =>
                  rw [h6] at h
                  simp only at h
                  obtain ⟨_, h⟩ := Prod.mk.inj h
                  cases h
                  obtain ⟨c1, c2⟩ := childRecs_map n _ cs h6
                  have hl : (raw.set 5 pattern').length = raw.length := List.length_set
                  generalize hr1 : raw.set 5 pattern' = raw1 at *
                  have ht : (raw1.take 13).length = 13 := by rw [List.length_take]; omega
                  have e5 : (raw1.take 13 ++ .str apart :: raw1.drop (14 + n))[5]? = some pattern' := by
                    rw [List.getElem?_append_left (by omega), List.getElem?_take_of_lt (by omega), ← hr1,
                      List.getElem?_set_self (by omega)]
                  have eset : (raw1.take 13 ++ .str apart :: raw1.drop (14 + n)).set 5 pattern =
                      (raw1.take 13).set 5 pattern ++ .str apart :: raw1.drop (14 + n) := by
                    rw [List.set_append_left _ _ (by omega)]
                  rw [propIn]
                  simp only [e5, hs, eset]
                  cases cs with
                  | nil => exact absurd c2.symm hn
                  | cons c cs =>
                    simp only
                    have ht2 : ((raw1.take 13).set 5 pattern).length = 13 := by rw [List.length_set]; exact ht
                    rw [if_pos (by rw [List.length_append, ht2, List.length_cons]; omega)]
                    rw [c1, c2]
                    congr 2
                    have a1 : ((raw1.take 13).set 5 pattern ++ Val.str apart :: raw1.drop (14 + n)).take 13 = (raw1.take 13).set 5 pattern := by
                      rw [List.take_append_of_le_length (by omega), List.take_of_length_le (by omega)]
                    have a2 : ((raw1.take 13).set 5 pattern ++ Val.str apart :: raw1.drop (14 + n)).drop 14 = raw1.drop (14 + n) := by
                      rw [List.drop_append, ht2, List.drop_of_length_le (by omega)]
                      rfl
                    rw [a1, a2]
                    have a3 : (raw1.drop 14).take n ++ raw1.drop (14 + n) = raw1.drop 14 := by
                      rw [← List.drop_drop, List.take_append_drop]
                    rw [a3]
                    have a4 : (raw1.take 13).set 5 pattern = raw.take 13 := by
                      rw [← List.take_set, hback]
                    have a5 : raw1.drop 14 = raw.drop 14 := by
                      rw [← hr1, List.drop_set, if_pos (by omega)]
                    rw [a4, a5]
                    have a6 : raw.drop 13 = raw[13] :: raw.drop 14 := List.drop_eq_getElem_cons hl13
                    have a7 : raw[13] = .str (showNat n) := by
                      rw [List.getElem?_eq_getElem hl13] at h13; exact Option.some.inj h13
                    rw [← a7, ← a6, List.take_append_drop]

theorem command_inv (v : Val) : Inv commandOut (fun r : Rec => some r.raw) v := by
  intro v' a h
  rw [commandOut] at h
  obtain ⟨_, h⟩ := Prod.mk.inj h
  cases h1 : nameAt v 2 with
  | none => rw [h1] at h; cases h
  | some name =>
    cases h2 : (idx v 1).bind (idx · 0) with
    | none => rw [h1, h2] at h; cases h
    | some id => rw [h1, h2] at h; cases h; rfl

theorem param_inv (v : Val) : Inv paramOut (fun r : Rec => some r.raw) v := by
  intro v' a h
  rw [paramOut] at h
  obtain ⟨_, h⟩ := Prod.mk.inj h
  cases h1 : nameAt v 1 with
  | none => rw [h1] at h; cases h
  | some name => rw [h1] at h; cases h; rfl

end V8.Form
