import Verif.FormSlots
/-
Lemmas about a whole managed form, and about the links of elements in include areas.
-/
namespace V8.Form
open V8.Brace V8.Dec V8.Module

theorem loop_same {α : Type} (f : Val → Val × Option α) (hf : ∀ v, (f v).1 = v) : ∀ (n : Nat) (l : List Val), (rootLoop f n l).1 = l
  | 0, l => rfl
  | n + 1, [] => rfl
  | n + 1, v :: r => by
    rw [rootLoop]
    have hv := hf v
    cases h : f v with
    | mk v' o =>
      rw [h] at hv
      cases hv
      cases o with
      | none => rfl
      | some a =>
        have hr := loop_same f hf n r
        simp only
        cases h2 : rootLoop f n r with
        | mk r' o' =>
          rw [h2] at hr
          cases hr
          cases o' <;> rfl

theorem slot_same {α : Type} (f : Val → Val × Option α) (hf : ∀ v, (f v).1 = v) (i : Nat) (raw : List Val)
    (h : (slotOut f i raw).2 = none) : (slotOut f i raw).1[i]? = raw[i]? := by
  cases hv : raw[i]? with
  | none => rw [slotOut, hv]; exact hv
  | some items =>
    have hil : i < raw.length := by rw [List.getElem?_eq_some_iff] at hv; exact hv.1
    rw [slotOut, hv] at h ⊢
    simp only at h ⊢
    rw [List.getElem?_set_self hil]
    congr 1
    revert h
    fun_cases rootOut f items with
    | case1 v0 t r n hc r' hl =>
      intro _
      have := loop_same f hf (n + 1) r
      rw [hl] at this
      rw [← this]
    | case2 => intro h; cases h
    | case3 => intro _; rfl
    | case4 => intro _; rfl

theorem elemIndex_congr (root root' : List Val) (i : Nat) (h : elemIndex root = some i) (hm : ∀ m, m < i → root'[m]? = root[m]?) :
    elemIndex root' = some i := by
  rw [elemIndex] at h
  cases h1 : calcOffset root [(18, 2), (3, 0)] 0 with
  | none => rw [h1] at h; cases h
  | some j =>
    rw [h1] at h
    simp only at h
    cases h2 : countAt root j with
    | none => rw [h2] at h; cases h
    | some n =>
      rw [h2] at h
      cases h
      rw [elemIndex, calcOffset_congr root root' _ 0 j rfl h1 (fun m hm' => hm m (by omega))]
      simp only
      rw [countAt_congr root root' j (hm j (by omega)), h2]

theorem commandsByName_some (l : List Val) (as : List Rec) : ∀ (n : Nat) (l' : List Val), rootLoop commandOut n l = (l', some as) →
    as.all (fun c => (idx c.raw 1).isSome) = true := by
  induction l generalizing as with
  | nil =>
    intro n l' h
    cases n with
    | zero => cases (Prod.mk.inj h).2; rfl
    | succ n => cases (Prod.mk.inj h).2
  | cons v r ih =>
    intro n l' h
    cases n with
    | zero => cases (Prod.mk.inj h).2; rfl
    | succ n =>
      rw [rootLoop] at h
      cases hv : commandOut v with
      | mk v' o =>
        rw [hv] at h
        cases o with
        | none => cases (Prod.mk.inj h).2
        | some a =>
          simp only at h
          cases h2 : rootLoop commandOut n r with
          | mk r' o' =>
            rw [h2] at h
            cases o' with
            | none => cases (Prod.mk.inj h).2
            | some as' =>
              cases (Prod.mk.inj h).2
              rw [List.all_cons, ih as' n r' h2, Bool.and_true]
              rw [commandOut] at hv
              have hv2 := (Prod.mk.inj hv).2
              cases h3 : nameAt v 2 with
              | none => rw [h3] at hv2; cases hv2
              | some name =>
                cases h4 : idx v 1 with
                | none => rw [h3, h4] at hv2; cases hv2
                | some w =>
                  rw [h3, h4] at hv2
                  cases h5 : idx w 0 with
                  | none => simp only [Option.bind_some, h5] at hv2; cases hv2
                  | some id =>
                    simp only [Option.bind_some, h5] at hv2
                    cases hv2
                    show (idx v 1).isSome = true
                    rw [h4]; rfl

theorem commands_index (i : Nat) (raw : List Val) : ∃ C, commandsByName (slotOut commandOut i raw).2 = some C := by
  rw [slotOut]
  cases raw[i]? with
  | none => exact ⟨_, rfl⟩
  | some items =>
    simp only
    fun_cases rootOut commandOut items with
    | case1 => exact ⟨_, rfl⟩
    | case2 v0 t r n hc r' as hl =>
      simp only
      rw [commandsByName, if_pos (commandsByName_some _ _ _ _ hl)]
      exact ⟨_, rfl⟩
    | case3 => exact ⟨_, rfl⟩
    | case4 => exact ⟨_, rfl⟩

/-- what `decodeForm` does, step by step -/
theorem decodeForm_some (depth : Nat) (parent : Option Text) (raw raw' : List Val) (src : Src)
    (h : decodeForm depth parent raw = some (raw', src)) :
    ∃ root i P C root',
      rootOf raw = some root ∧ elemIndex root = some i ∧ propsById src.props = some P ∧ commandsById src.commands = some C ∧
      decodeList (decodeElem P C depth []) i root = some (root', src.tree, src.data) ∧
      src.props = (slotOut (propOut parent) 3 raw).2 ∧
      src.commands = (slotOut commandOut 5 raw).2 ∧
      src.params = (slotOut paramOut 4 raw).2 ∧
      raw'[1]? = some (.list root') ∧ raw'[3]? = (slotOut (propOut parent) 3 raw).1[3]? ∧ raw'[4]? = (slotOut paramOut 4 raw).1[4]? ∧
      raw'[5]? = (slotOut commandOut 5 raw).1[5]? ∧ (∀ j, j ≠ 1 → j ≠ 3 → j ≠ 4 → j ≠ 5 → raw'[j]? = raw[j]?) := by
  have slot_at : ∀ {α : Type} (f : Val → Val × Option α) (i : Nat) (l l' : List Val), l'[i]? = l[i]? →
      (slotOut f i l').2 = (slotOut f i l).2 ∧ (slotOut f i l').1[i]? = (slotOut f i l).1[i]? := by
    intro α f i l l' he
    rw [slotOut, slotOut, he]
    cases hl : l[i]? with
    | none => exact ⟨rfl, by rw [he]⟩
    | some v =>
      rw [hl] at he
      rw [List.getElem?_eq_some_iff] at hl he
      simp only
      rw [List.getElem?_set_self hl.1, List.getElem?_set_self he.1]
      constructor <;> first | rfl | trivial
  rw [decodeForm] at h
  generalize ha : slotOut (propOut parent) 3 raw = a at h
  generalize hb : slotOut commandOut 5 a.1 = b at h
  have a_ne : ∀ j, j ≠ 3 → a.1[j]? = raw[j]? := by intro j hj; rw [← ha]; exact slotOut_ne _ 3 raw j hj
  have b_ne : ∀ j, j ≠ 5 → b.1[j]? = a.1[j]? := by intro j hj; rw [← hb]; exact slotOut_ne _ 5 a.1 j hj
  simp only at h
  cases h1 : rootOf b.1 with
  | none => rw [h1] at h; cases h
  | some root =>
    rw [h1] at h
    simp only at h
    cases h2 : elemIndex root with
    | none => rw [h2] at h; cases h
    | some i =>
      cases h3 : propsById a.2 with
      | none => rw [h2, h3] at h; cases h
      | some P =>
        cases h4 : commandsById b.2 with
        | none => rw [h2, h3, h4] at h; cases h
        | some C =>
          rw [h2, h3, h4] at h
          simp only at h
          cases h5 : decodeList (decodeElem P C depth []) i root with
          | none => rw [h5] at h; cases h
          | some q =>
            obtain ⟨root', nodes, es⟩ := q
            rw [h5] at h
            simp only at h
            generalize hc : slotOut paramOut 4 (b.1.set 1 (.list root')) = c at h
            cases h
            have hb1 : b.1[1]? = some (.list root) := by
              revert h1
              rw [rootOf]
              intro h1
              cases hx : b.1[1]? with
              | none => rw [hx] at h1; cases h1
              | some v =>
                rw [hx] at h1
                cases v with
                | none => cases h1
                | str _ => cases h1
                | list l => cases h1; rfl
            have hl1 : 1 < b.1.length := by rw [List.getElem?_eq_some_iff] at hb1; exact hb1.1
            have hraw1 : raw[1]? = some (.list root) := by
              rw [← a_ne 1 (by omega), ← b_ne 1 (by omega)]; exact hb1
            have c_ne : ∀ j, j ≠ 4 → j ≠ 1 → c.1[j]? = b.1[j]? := by
              intro j hj hj1
              rw [← hc, slotOut_ne _ 4 _ j hj, List.getElem?_set_ne (Ne.symm hj1)]
            have s5 := slot_at commandOut 5 raw a.1 (a_ne 5 (by omega))
            have s4 := slot_at paramOut 4 raw (b.1.set 1 (.list root'))
              (by rw [List.getElem?_set_ne (by omega), b_ne 4 (by omega), a_ne 4 (by omega)])
            rw [hb] at s5
            rw [hc] at s4
            refine ⟨root, i, P, C, root', by rw [rootOf, hraw1], h2, h3, h4, h5, rfl, s5.1, s4.1, ?_, ?_, ?_, ?_, ?_⟩
            · rw [← hc, slotOut_ne _ 4 _ 1 (by omega), List.getElem?_set_self hl1]
            · rw [c_ne 3 (by omega) (by omega), b_ne 3 (by omega)]
            · exact s4.2
            · rw [c_ne 5 (by omega) (by omega)]; exact s5.2
            · intro j j1 j3 j4 j5
              rw [c_ne j j4 j1, b_ne j j5, a_ne j j3]

/-- **the whole form**: what was taken apart is put together to the same form -/
theorem form_rt (depth : Nat) (parent : Option Text) (raw raw' : List Val) (src : Src) (h : decodeForm depth parent raw = some (raw', src))
    (hparent : parent ≠ some []) (h3 : SlotOk raw 3) (h4 : SlotOk raw 4) (h5 : SlotOk raw 5)
    (hword : ∀ v, raw[3]? = some (.list v) → ∀ x ∈ v, NoWord x) (hprops : src.props = none → raw'[3]? = raw[3]?)
    (hkeys : (src.data.map (·.1)).Nodup)
    (hfine : ∀ C, commandsByName src.commands = some C → ∀ pl ∈ places [] src.tree, Fine (propsByName src.props) C src.data pl) :
    encodeForm depth parent raw' src = some raw := by
  obtain ⟨root, i, P, C, root', hr, hi, hP, hC, hl, e3, e5, e4, g1, g3, g4, g5, grest⟩ := decodeForm_some depth parent raw raw' src h
  obtain ⟨Cn, hCn⟩ := commands_index 5 raw
  have hraw1 : raw[1]? = some (.list root) := by
    rw [rootOf] at hr
    cases hx : raw[1]? with
    | none => rw [hx] at hr; cases hr
    | some v =>
      rw [hx] at hr
      cases v with
      | none => cases hr
      | str _ => cases hr
      | list l => cases hr; rfl
  obtain ⟨r5, q1, q2, q3⟩ := slot_rt commandOut (fun r : Rec => some r.raw) 5 raw raw' (fun v _ x _ => command_inv x) h5
    (slot_same commandOut (fun _ => rfl) 5 raw) g5
  obtain ⟨r3, p1, p2, p3⟩ := slot_rt (propOut parent) (propIn parent) 3 raw r5 (fun v hv x hx => prop_inv parent hparent x (hword v hv x hx)) h3
    (fun ho => by rw [← g3]; exact hprops (by rw [e3]; exact ho)) (by rw [q3 3 (by omega)]; exact g3)
  rw [encodeForm, e5, q1]
  simp only
  rw [e3, p1]
  simp only
  rw [hCn]
  simp only
  have hr3 : r3[1]? = some (.list root') := by rw [p3 1 (by omega), q3 1 (by omega)]; exact g1
  have hl1 : 1 < r3.length := by rw [List.getElem?_eq_some_iff] at hr3; exact hr3.1
  have hlist := list_rt (decodeElem P C depth []) (encodeElem (propsByName src.props) Cn src.data depth []) [] (propsByName src.props) Cn src.data
    (fun k raw node es h hf hd => elem_rt P C _ Cn src.data depth [] k raw node es h rfl hf hd)
    (fun k raw node es h => decodeElem_node _ _ _ _ k raw node es h) i root root' src.tree src.data hl
    (hfine Cn (by rw [e5]; exact hCn)) (fun e he => dictGet_mem src.data hkeys e he)
  have helem : ∃ r1, encodeElements (propsByName src.props) Cn depth src r3 = some r1 ∧ r1[1]? = raw[1]? ∧ ∀ j, j ≠ 1 → r1[j]? = r3[j]? := by
    rw [encodeElements, rootOf, hr3]
    simp only
    rcases hlist with ⟨hn, rfl⟩ | ⟨hn, hmk, hm, he⟩
    · rw [hi]
      simp only
      have hcount : ∃ n, root'[i]? = some (.str (showNat n)) := by
        rw [decodeList] at hl
        cases hc : countAt root' i with
        | none => rw [hc] at hl; cases hl
        | some n => exact ⟨n, countAt_some root' i n hc⟩
      obtain ⟨n, hn'⟩ := hcount
      rw [hn']
      simp only
      rw [if_neg (Ne.symm (marker_ne n))]
      exact ⟨r3, rfl, by rw [hr3, hraw1], fun _ _ => rfl⟩
    · rw [elemIndex_congr root root' i hi hm]
      simp only
      rw [hmk]
      simp only [if_true]
      rw [he]
      exact ⟨_, rfl, by rw [List.getElem?_set_self hl1, hraw1], fun j hj => List.getElem?_set_ne (Ne.symm hj)⟩
  obtain ⟨r1, s1, s2, s3⟩ := helem
  rw [← e3, s1]
  simp only
  obtain ⟨r4, t1, t2, t3⟩ := slot_rt paramOut (fun r : Rec => some r.raw) 4 raw r1 (fun v _ x _ => param_inv x) h4
    (slot_same paramOut (fun _ => rfl) 4 raw) (by rw [s3 4 (by omega), p3 4 (by omega), q3 4 (by omega)]; exact g4)
  rw [e4, t1]
  show some r4 = some raw
  congr 1
  apply List.ext_getElem?
  intro j
  by_cases j4 : j = 4
  · rw [j4]; exact t2
  · rw [t3 j j4]
    by_cases j1 : j = 1
    · rw [j1]; exact s2
    · rw [s3 j j1]
      by_cases j3 : j = 3
      · rw [j3]; exact p2
      · rw [p3 j j3]
        by_cases j5 : j = 5
        · rw [j5]; exact q2
        · rw [q3 j j5]
          exact grest j j1 j3 j4 j5

/-! ### elements outside include areas -/

theorem relink_plain (P : List (Text × PropId)) (C : List (Text × Val)) (k : Kind) (name key : Text) (d : Data)
    (h1 : occurs include' key = false) (h2 : occurs includr key = false) : relink P C k name key d = some d.raw := by
  rw [relink, if_neg (by rw [h2]; simp)]
  simp only [h1, h2, Bool.or_self, Bool.false_eq_true, if_false]

end V8.Form
