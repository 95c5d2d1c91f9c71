import Verif.Json
namespace V8.Json

/-- the value at a path of keys -/
def J.at : J → List Text → Option J
  | j, [] => some j
  | .obj d, k :: r => match d.get k with
    | none => none
    | some v => v.at r
  | _, _ :: _ => none
termination_by _ p => p.length

theorem at_nil (j : J) : j.at [] = some j := by rw [J.at]
theorem at_obj (d : D) (k : Text) (r : List Text) : (J.obj d).at (k :: r) = (d.get k).bind (fun v => v.at r) := by
  rw [J.at]; cases d.get k <;> rfl
theorem at_leaf (j : J) (h : ∀ d, j ≠ .obj d) (k : Text) (r : List Text) : j.at (k :: r) = none := by
  cases j <;> first | (rw [J.at]; intro d hd; cases hd) | exact absurd rfl (h _)

mutual
/-- Python dictionaries have distinct keys -/
def J.WF : J → Prop
  | .obj d => d.WF
  | _ => True
/-- Python dictionaries have distinct keys -/
def D.WF : D → Prop
  | .nil => True
  | .cons k v r => k ∉ r.keys ∧ v.WF ∧ r.WF
end

namespace D

theorem get_none (d : D) (x : Text) : d.get x = none ↔ x ∉ d.keys := by
  match d with
  | .nil => simp [get, keys]
  | .cons k v r =>
    rw [get, keys, List.mem_cons]
    by_cases h : k = x
    · rw [if_pos h]; simp [h]
    · rw [if_neg h, get_none r x]
      constructor
      · rintro hh (rfl | h2)
        · exact h rfl
        · exact hh h2
      · intro hh h2; exact hh (.inr h2)

theorem get_set (d : D) (k x : Text) (v : J) : (d.set k v).get x = if k = x then some v else d.get x := by
  match d with
  | .nil => rw [set, get, get]; rfl
  | .cons k' v' r =>
    rw [set]
    by_cases h : k' = k
    · rw [if_pos h, get, get]
      subst h
      by_cases h2 : k' = x
      · rw [if_pos h2, if_pos h2]
      · rw [if_neg h2, if_neg h2, if_neg h2]
    · rw [if_neg h, get, get, get_set r k x v]
      by_cases h2 : k' = x
      · rw [if_pos h2, if_pos h2, if_neg]
        intro h3; exact h (h2.trans h3.symm)
      · rw [if_neg h2, if_neg h2]

theorem set_get (d : D) (k : Text) (v : J) (h : d.get k = some v) : d.set k v = d := by
  match d with
  | .nil => cases h
  | .cons k' v' r =>
    rw [set]
    rw [get] at h
    by_cases e : k' = k
    · rw [if_pos e] at h ⊢; injection h with h; rw [h]
    · rw [if_neg e] at h ⊢; rw [set_get r k v h]

theorem keys_set (d : D) (k : Text) (v : J) : (d.set k v).keys = if k ∈ d.keys then d.keys else d.keys ++ [k] := by
  match d with
  | .nil => rw [set, keys, keys]; simp [keys]
  | .cons k' v' r =>
    rw [set]
    by_cases e : k' = k
    · rw [if_pos e, keys, keys, if_pos (by rw [e]; simp)]
    · rw [if_neg e, keys, keys, keys_set r k v]
      by_cases h : k ∈ r.keys
      · rw [if_pos h, if_pos (by simp [h])]
      · rw [if_neg h, if_neg]
        · rfl
        · rw [List.mem_cons]; rintro (h1 | h1)
          · exact e h1.symm
          · exact h h1

theorem get_wf (d : D) (h : d.WF) (k : Text) (v : J) (hg : d.get k = some v) : v.WF := by
  match d with
  | .nil => cases hg
  | .cons k' v' r =>
    rw [WF] at h
    rw [get] at hg
    by_cases e : k' = k
    · rw [if_pos e] at hg; injection hg with hg; rw [← hg]; exact h.2.1
    · rw [if_neg e] at hg; exact get_wf r h.2.2 k v hg

end D

/-- the value that results for one key -/
def step (b : Option J) (v : J) : Option J :=
  match b, v with
  | none, v => some v
  | some .null, v => some v
  | some (.obj bd), .obj nd => (merge bd nd).map .obj
  | some (.arr l0), .arr l => some (.arr (l0 ++ l))
  | some _, .obj _ => none
  | some _, .arr _ => none
  | some _, v => some v

theorem merge_nil (base : D) : merge base .nil = some base := by rw [merge]

theorem merge_cons (base : D) (k : Text) (v : J) (r : D) :
    merge base (.cons k v r) = (step (base.get k) v).bind (fun x => merge (base.set k x) r) := by
  rw [merge]
  cases hb : base.get k with
  | none => rfl
  | some b =>
    cases b <;> cases v <;> try rfl
    rename_i bd nd
    show (merge bd nd).bind _ = ((merge bd nd).map J.obj).bind _
    cases merge bd nd <;> rfl

theorem merge_get (new : D) (hw : new.WF) : ∀ (base m : D), merge base new = some m → ∀ x,
    (new.get x = none → m.get x = base.get x) ∧
    (∀ v, new.get x = some v → ∃ y, step (base.get x) v = some y ∧ m.get x = some y) := by
  match new with
  | .nil => intro base m h x; rw [merge_nil] at h; injection h with h; subst h; exact ⟨fun _ => rfl, fun v h => by cases h⟩
  | .cons k v r =>
    intro base m h x
    rw [D.WF] at hw
    rw [merge_cons] at h
    cases hs : step (base.get k) v with
    | none => rw [hs] at h; cases h
    | some y =>
      rw [hs] at h
      have ih := merge_get r hw.2.2 (base.set k y) m h x
      rw [D.get]
      by_cases e : k = x
      · rw [if_pos e]
        subst e
        refine ⟨fun h => (by cases h), ?_⟩
        intro v' hv'
        injection hv' with hv'; subst hv'
        have := ih.1 ((D.get_none r k).mpr hw.1)
        rw [D.get_set, if_pos rfl] at this
        exact ⟨y, hs, this⟩
      · rw [if_neg e]
        rw [D.get_set, if_neg e] at ih
        exact ih

theorem merge_none (new : D) (hw : new.WF) : ∀ (base : D), merge base new = none ↔
    ∃ x v, new.get x = some v ∧ step (base.get x) v = none := by
  match new with
  | .nil => intro base; rw [merge_nil]; constructor
            · intro h; cases h
            · rintro ⟨x, v, h, _⟩; cases h
  | .cons k v r =>
    intro base
    rw [D.WF] at hw
    rw [merge_cons]
    cases hs : step (base.get k) v with
    | none => exact ⟨fun _ => ⟨k, v, by rw [D.get, if_pos rfl], hs⟩, fun _ => rfl⟩
    | some y =>
      show merge (base.set k y) r = none ↔ _
      rw [merge_none r hw.2.2]
      constructor
      · rintro ⟨x, v', h1, h2⟩
        have hne : k ≠ x := by
          rintro rfl
          rw [(D.get_none r k).mpr hw.1] at h1; cases h1
        rw [D.get_set, if_neg hne] at h2
        exact ⟨x, v', by rw [D.get, if_neg hne]; exact h1, h2⟩
      · rintro ⟨x, v', h1, h2⟩
        rw [D.get] at h1
        by_cases e : k = x
        · rw [if_pos e] at h1; injection h1 with h1; subst h1; subst e
          rw [hs] at h2; cases h2
        · rw [if_neg e] at h1
          exact ⟨x, v', h1, by rw [D.get_set, if_neg e]; exact h2⟩

mutual
/-- no list anywhere in the value -/
def J.NoList : J → Prop
  | .arr _ => False
  | .obj d => d.NoList
  | _ => True
def D.NoList : D → Prop
  | .nil => True
  | .cons _ v r => v.NoList ∧ r.NoList
end

theorem D.get_noList (d : D) (h : d.NoList) (k : Text) (v : J) (hg : d.get k = some v) : v.NoList := by
  match d with
  | .nil => cases hg
  | .cons k' v' r =>
    rw [D.NoList] at h
    rw [D.get] at hg
    by_cases e : k' = k
    · rw [if_pos e] at hg; injection hg with hg; rw [← hg]; exact h.1
    · rw [if_neg e] at hg; exact get_noList r h.2 k v hg

theorem step_nested (new : D) : ∀ x nd, new.get x = some (.obj nd) → sizeOf nd < sizeOf new := by
  match new with
  | .nil => intro x nd h; cases h
  | .cons k v r =>
    intro x nd h
    rw [D.get] at h
    by_cases e : k = x
    · rw [if_pos e] at h; injection h with h; subst h; simp; omega
    · rw [if_neg e] at h; have := step_nested r x nd h; simp; omega

/-- a dictionary that already agrees with `new` is not changed by it -/
theorem merge_same (new : D) : ∀ (m : D), (∀ x v, new.get x = some v → step (m.get x) v = m.get x ∧ m.get x ≠ none) → new.WF → merge m new = some m := by
  match new with
  | .nil => intro m _ _; exact merge_nil m
  | .cons k v r =>
    intro m h hw
    rw [D.WF] at hw
    rw [merge_cons]
    have hk := h k v (by rw [D.get, if_pos rfl])
    cases hm : m.get k with
    | none => exact absurd hm hk.2
    | some y =>
      rw [hm] at hk
      rw [hk.1]
      show merge (m.set k y) r = some m
      rw [D.set_get m k y hm]
      refine merge_same r m ?_ hw.2.2
      intro x v' hx
      refine h x v' ?_
      rw [D.get, if_neg]
      · exact hx
      · rintro rfl
        rw [(D.get_none r k).mpr hw.1] at hx; cases hx

theorem merge_self (new : D) (hw : new.WF) (hn : new.NoList) : merge new new = some new := by
  refine merge_same new new ?_ hw
  intro x v hx
  rw [hx]
  refine ⟨?_, by simp⟩
  cases v with
  | arr l => exact absurd (D.get_noList new hn x _ hx) (by simp [J.NoList])
  | obj nd =>
    have := step_nested new x nd hx
    have h1 := D.get_wf new hw x _ hx
    have h2 := D.get_noList new hn x _ hx
    rw [J.WF] at h1
    rw [J.NoList] at h2
    show (merge nd nd).map J.obj = _
    rw [merge_self nd h1 h2]; rfl
  | null => rfl
  | str s => rfl
  | scalar s => rfl
termination_by sizeOf new

theorem merge_idem (new base m : D) (hw : new.WF) (hn : new.NoList) (h : merge base new = some m) : merge m new = some m := by
  refine merge_same new m ?_ hw
  intro x v hx
  obtain ⟨y, hy, hm⟩ := (merge_get new hw base m h x).2 v hx
  rw [hm]
  refine ⟨?_, by simp⟩
  cases v with
  | arr l => exact absurd (D.get_noList new hn x _ hx) (by simp [J.NoList])
  | obj nd =>
    have hsz := step_nested new x nd hx
    have h1 := D.get_wf new hw x _ hx
    have h2 := D.get_noList new hn x _ hx
    rw [J.WF] at h1
    rw [J.NoList] at h2
    have hself := merge_self nd h1 h2
    cases hb : base.get x with
    | none => rw [hb] at hy; injection hy with hy; subst hy; show (merge nd nd).map J.obj = _; rw [hself]; rfl
    | some b =>
      rw [hb] at hy
      cases b with
      | null => injection hy with hy; subst hy; show (merge nd nd).map J.obj = _; rw [hself]; rfl
      | obj bd =>
        change (merge bd nd).map J.obj = some y at hy
        cases hmm : merge bd nd with
        | none => rw [hmm] at hy; cases hy
        | some z =>
          rw [hmm] at hy; injection hy with hy; subst hy
          show (merge z nd).map J.obj = _
          rw [merge_idem nd bd z h1 h2 hmm]; rfl
      | str s => cases hy
      | scalar s => cases hy
      | arr s => cases hy
  | null =>
    have : y = .null := by
      cases hb : base.get x with
      | none => rw [hb] at hy; injection hy with hy; exact hy.symm
      | some b => rw [hb] at hy; cases b <;> injection hy with hy <;> exact hy.symm
    subst this; rfl
  | str s =>
    have : y = .str s := by
      cases hb : base.get x with
      | none => rw [hb] at hy; injection hy with hy; exact hy.symm
      | some b => rw [hb] at hy; cases b <;> injection hy with hy <;> exact hy.symm
    subst this; rfl
  | scalar s =>
    have : y = .scalar s := by
      cases hb : base.get x with
      | none => rw [hb] at hy; injection hy with hy; exact hy.symm
      | some b => rw [hb] at hy; cases b <;> injection hy with hy <;> exact hy.symm
    subst this; rfl
termination_by sizeOf new

end V8.Json
