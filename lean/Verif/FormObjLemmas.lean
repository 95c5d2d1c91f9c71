import Verif.FormObj
import Verif.FormJsonLemmas
import Verif.FormWhole
import Verif.FormArea
import Verif.OFormWhole
/- Lemmas about the slots of a form: taking it apart and putting it together do not look at the code (slot 2) and the version (slot 0). -/
namespace V8.Form
open V8.Brace V8.Header

theorem dictGet_none {α β : Type} [DecidableEq α] (d : List (α × β)) (k : α) (h : dictGet d k = none) : ∀ p ∈ d, p.1 ≠ k := by
  intro p hp he
  rw [dictGet] at h
  cases hf : d.reverse.find? (fun e => decide (e.1 = k)) with
  | some e => rw [hf] at h; cases h
  | none =>
    have := List.find?_eq_none.mp hf p (List.mem_reverse.mpr hp)
    exact this (by rw [decide_eq_true_eq]; exact he)

/-- a dict gives the same in any order -/
theorem dictGet_perm {α β : Type} [DecidableEq α] {d e : List (α × β)} (h : d.Perm e) (hn : (e.map (·.1)).Nodup) (k : α) : dictGet d k = dictGet e k := by
  cases hd : dictGet d k with
  | some v => exact (dictGet_mem e hn (k, v) (h.mem_iff.mp (dictGet_some d k v hd))).symm
  | none =>
    cases he : dictGet e k with
    | none => rfl
    | some v => exact absurd rfl (dictGet_none d k hd (k, v) (h.mem_iff.mpr (dictGet_some e k v he)))

theorem encodeElem_congr (P : List (Text × PropId)) (C : List (Text × Val)) {D E : List (Text × Data)} (h : ∀ k, dictGet D k = dictGet E k) :
    ∀ (depth : Nat) (path : Text), encodeElem P C D depth path = encodeElem P C E depth path
  | 0, path => by funext n; rw [encodeElem, encodeElem]
  | depth + 1, path => by
    funext n
    obtain ⟨name, k, child⟩ := n
    rw [encodeElem, encodeElem, h]
    cases dictGet E (key path name) with
    | none => rfl
    | some d =>
      simp only
      rw [encodeElem_congr P C h depth]

theorem encodeForm_congr (depth : Nat) (con : Option Text) (raw : List Val) (s t : Src) (h1 : s.props = t.props) (h2 : s.commands = t.commands)
    (h3 : s.params = t.params) (h4 : s.tree = t.tree) (h5 : ∀ k, dictGet s.data k = dictGet t.data k) :
    encodeForm depth con raw s = encodeForm depth con raw t := by
  unfold encodeForm encodeElements
  rw [h1, h2, h3, h4]
  simp only [fun P C => encodeElem_congr P C h5 depth []]

/-- the data may stand in another order -/
theorem encodeForm_sorted (depth : Nat) (con : Option Text) (raw : List Val) (s : Src) (h : (s.data.map (·.1)).Nodup) :
    encodeForm depth con raw { s with data := sortBy (·.1) s.data } = encodeForm depth con raw s :=
  encodeForm_congr depth con raw _ _ rfl rfl rfl rfl (fun k => dictGet_perm (sortBy_perm _ _) h k)

theorem sorted_nodup {α : Type} (l : List (Text × α)) (h : (l.map (·.1)).Nodup) : ((sortBy (·.1) l).map (·.1)).Nodup :=
  (((sortBy_perm (·.1) l).map (·.1)).nodup_iff).mpr h

/-! ### the parameters -/

theorem rootLoop_params : ∀ (n : Nat) (l : List Val) (l' : List Val) (as : List Rec), rootLoop paramOut n l = (l', some as) → ∀ r ∈ as, r.id = .none
  | 0, l, l', as, h => by rw [rootLoop] at h; cases h; intro r hr; cases hr
  | n + 1, [], l', as, h => by rw [rootLoop] at h; cases h
  | n + 1, v :: r, l', as, h => by
    rw [rootLoop, paramOut] at h
    cases hn : nameAt v 1 with
    | none => rw [hn] at h; cases h
    | some name =>
      rw [hn] at h
      simp only [Option.map_some] at h
      cases hr : rootLoop paramOut n r with
      | mk r' o =>
        rw [hr] at h
        cases o with
        | none => cases h
        | some as' =>
          cases h
          intro q hq
          rcases List.mem_cons.mp hq with rfl | hq
          · rfl
          · exact rootLoop_params n r r' as' hr q hq

theorem slot_params (i : Nat) (raw : List Val) (l : List Rec) (h : (slotOut paramOut i raw).2 = some l) : ∀ r ∈ l, r.id = .none := by
  rw [slotOut] at h
  cases hv : raw[i]? with
  | none => rw [hv] at h; cases h
  | some items =>
    rw [hv] at h
    simp only at h
    rw [rootOut.eq_def] at h
    split at h
    · split at h
      · split at h
        · cases h
        · rename_i hl
          have := Option.some.inj h
          subst this
          exact rootLoop_params _ _ _ _ hl
      · cases h
    · cases h

theorem decode_params {depth : Nat} {con : Option Text} {raw raw' : List Val} {s : Src} (h : decodeForm depth con raw = some (raw', s)) :
    ∀ l, s.params = some l → ∀ r ∈ l, r.id = .none := by
  obtain ⟨_, _, _, _, _, _, _, _, _, _, _, _, e4, _⟩ := decodeForm_some depth con raw raw' s h
  intro l hl
  rw [e4] at hl
  exact slot_params 4 raw l hl

/-! ### slot 2 -/

theorem slotOut_set {α : Type} (f : Val → Val × Option α) (i j : Nat) (v : Val) (raw : List Val) (h : j ≠ i) :
    slotOut f i (raw.set j v) = ((slotOut f i raw).1.set j v, (slotOut f i raw).2) := by
  rw [slotOut, slotOut, List.getElem?_set_ne h]
  cases raw[i]? with
  | none => rfl
  | some items =>
    simp only
    rw [List.set_comm v _ h]

theorem rootOf_set (raw : List Val) (j : Nat) (v : Val) (h : j ≠ 1) : rootOf (raw.set j v) = rootOf raw := by
  rw [rootOf, rootOf, List.getElem?_set_ne h]

theorem decodeForm_set (depth : Nat) (con : Option Text) (raw : List Val) (v : Val) :
    decodeForm depth con (raw.set 2 v) = (decodeForm depth con raw).map (fun r => (r.1.set 2 v, r.2)) := by
  rw [decodeForm, decodeForm, slotOut_set _ 3 2 v raw (by omega)]
  simp only
  rw [slotOut_set _ 5 2 v _ (by omega)]
  simp only
  rw [rootOf_set _ 2 v (by omega)]
  cases rootOf (slotOut commandOut 5 (slotOut (propOut con) 3 raw).1).1 with
  | none => rfl
  | some root =>
    simp only
    cases elemIndex root with
    | none => rfl
    | some i =>
      cases propsById (slotOut (propOut con) 3 raw).2 with
      | none => rfl
      | some P =>
        cases commandsById (slotOut commandOut 5 (slotOut (propOut con) 3 raw).1).2 with
        | none => rfl
        | some C =>
          simp only
          cases decodeList (decodeElem P C depth []) i root with
          | none => rfl
          | some q =>
            obtain ⟨root', nodes, es⟩ := q
            simp only [Option.map_some]
            rw [List.set_comm v _ (show 2 ≠ 1 by omega), slotOut_set _ 4 2 v _ (by omega)]

theorem slotIn_set {α : Type} (f : α → Option Val) (i j : Nat) (items : Option (List α)) (v : Val) (raw : List Val) (h : j ≠ i) :
    slotIn f i items (raw.set j v) = (slotIn f i items raw).map (fun r => (r.1.set j v, r.2)) := by
  unfold slotIn
  rw [List.getElem?_set_ne h]
  cases raw[i]? with
  | none => rfl
  | some w =>
    simp only
    cases idx w 1 with
    | none => rfl
    | some m =>
      simp only
      by_cases hm : m = .str marker
      · rw [if_pos hm, if_pos hm]
        cases w with
        | none => rfl
        | str _ => rfl
        | list l =>
          cases items with
          | none => simp only [Option.map_some]; rw [List.set_comm v _ h]
          | some it =>
            cases it with
            | nil => simp only [Option.map_some]; rw [List.set_comm v _ h]
            | cons a r =>
              simp only
              cases mapAll f (a :: r) with
              | none => rfl
              | some vs => simp only [Option.map_some]; rw [List.set_comm v _ h]
      · rw [if_neg hm, if_neg hm]
        rfl

theorem encodeElements_set (P : List (Text × PropId)) (C : List (Text × Val)) (depth : Nat) (s : Src) (raw : List Val) (v : Val) :
    encodeElements P C depth s (raw.set 2 v) = (encodeElements P C depth s raw).map (·.set 2 v) := by
  unfold encodeElements
  rw [rootOf_set _ 2 v (by omega)]
  cases rootOf raw with
  | none => rfl
  | some root =>
    simp only
    cases elemIndex root with
    | none => rfl
    | some i =>
      simp only
      cases root[i]? with
      | none => rfl
      | some w =>
        simp only
        by_cases hw : w = .str marker
        · rw [if_pos hw, if_pos hw]
          cases encodeList (encodeElem P C s.data depth []) s.tree i root with
          | none => rfl
          | some root' =>
            simp only [Option.map_some]
            rw [List.set_comm v _ (show 2 ≠ 1 by omega)]
        · rw [if_neg hw, if_neg hw]
          rfl

theorem encodeForm_set (depth : Nat) (con : Option Text) (raw : List Val) (s : Src) (v : Val) :
    encodeForm depth con (raw.set 2 v) s = (encodeForm depth con raw s).map (·.set 2 v) := by
  unfold encodeForm
  rw [slotIn_set _ 5 2 _ v raw (by omega)]
  cases slotIn (fun r : Rec => some r.raw) 5 s.commands raw with
  | none => rfl
  | some q =>
    obtain ⟨raw1, commands⟩ := q
    simp only [Option.map_some]
    rw [slotIn_set _ 3 2 _ v raw1 (by omega)]
    cases slotIn (propIn con) 3 s.props raw1 with
    | none => rfl
    | some q =>
      obtain ⟨raw2, props⟩ := q
      simp only [Option.map_some]
      cases commandsByName commands with
      | none => rfl
      | some C =>
        simp only
        rw [encodeElements_set]
        cases encodeElements (propsByName props) C depth s raw2 with
        | none => rfl
        | some raw3 =>
          simp only [Option.map_some]
          rw [slotIn_set _ 4 2 _ v raw3 (by omega), Option.map_map]
          rw [Option.map_map]
          rfl

theorem slotOut_length {α : Type} (f : Val → Val × Option α) (i : Nat) (raw : List Val) : (slotOut f i raw).1.length = raw.length := by
  rw [slotOut]
  cases raw[i]? with
  | none => rfl
  | some _ => simp only [List.length_set]

/-- a managed form that was taken apart has its version and its code where they were -/
theorem decodeForm_frame {depth : Nat} {con : Option Text} {raw raw' : List Val} {s : Src} (h : decodeForm depth con raw = some (raw', s)) :
    raw'[0]? = raw[0]? ∧ raw'[2]? = raw[2]? := by
  obtain ⟨_, _, _, _, _, _, _, _, _, _, _, _, _, _, _, _, _, hj⟩ := decodeForm_some depth con raw raw' s h
  exact ⟨hj 0 (by omega) (by omega) (by omega) (by omega), hj 2 (by omega) (by omega) (by omega) (by omega)⟩

end V8.Form

namespace V8.OForm
open V8.Brace

theorem set2_zero (raw : List Val) (i j : Nat) (v : Val) (h : i ≠ 0) : (set2 raw i j v)[0]? = raw[0]? := by
  rw [set2]
  split
  · exact List.getElem?_set_ne h
  · rfl

/-- an ordinary form that was taken apart has its version where it was -/
theorem formOut_zero {ni depth : Nat} {raw raw' : List Val} {s : Src} (h : formOut ni depth raw = some (raw', s)) : raw'[0]? = raw[0]? := by
  rw [formOut] at h
  cases hg : get2 raw 2 2 with
  | none => rw [hg] at h; cases h
  | some w =>
    cases w with
    | none => rw [hg] at h; cases h
    | str _ => rw [hg] at h; cases h
    | list al =>
      rw [hg] at h
      simp only at h
      cases ha : attrsOut ni al with
      | none => rw [ha] at h; cases h
      | some q =>
        obtain ⟨al', attrs⟩ := q
        rw [ha] at h
        simp only at h
        split at h
        · rename_i panel hp
          by_cases hk : panel[0]? ≠ some (.str panelKind)
          · rw [if_pos hk] at h; cases h
          · rw [if_neg hk] at h
            cases hpr : elemProps attrs (get2 (set2 raw 2 2 (.list al')) 2 3) with
            | none => rw [hpr] at h; cases h
            | some P =>
              rw [hpr] at h
              simp only at h
              cases hm : mainOut P depth panel with
              | none => rw [hm] at h; cases h
              | some q =>
                rw [hm] at h
                cases h
                rw [set2_zero _ _ _ _ (by omega), set2_zero _ _ _ _ (by omega)]
        · cases h

end V8.OForm
