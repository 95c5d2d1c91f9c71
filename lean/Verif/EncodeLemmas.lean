import Verif.EncodeSpec
import Mathlib.Data.List.Nodup
/-
Lemmas about the rounds of the encoding loop.
-/
namespace V8.Encode

theorem Inevitably.bind {enc} {Q Q' : Option State → Prop} {o : Option State} (h : Inevitably enc Q o)
    (k : ∀ o, Q o → Inevitably enc Q' o) : Inevitably enc Q' o := by
  induction h with
  | here hq => exact k _ hq
  | step he _ ih => exact .step he ih

theorem Inevitably.mono {enc} {Q Q' : Option State → Prop} {o : Option State} (h : Inevitably enc Q o)
    (k : ∀ o, Q o → Q' o) : Inevitably enc Q' o := h.bind (fun o hq => .here (k o hq))

/-- depth of the tree -/
def Forest.depth : Forest → Nat
  | .nil => 0
  | .cons _ _ _ _ kids rest => max (kids.depth + 1) rest.depth

/-- entry of one task -/
def taskEntry (enc : Text → Text → Text → List Entry → Text) (t : Task) : List Entry :=
  if t.present then [⟨t.ty, t.uu, t.nm, enc t.ty t.nm t.uu (entries enc t.kids)⟩] else []

/-- objects of one task -/
def taskObjects (t : Task) : List Task := if t.present then t :: objects t.id t.kids else []

theorem entries_eq (enc) (p : Id) : ∀ f : Forest, entries enc f = (tasksOf p f).flatMap (taskEntry enc)
  | .nil => rfl
  | .cons ty nm uu pr kids rest => by
    rw [entries, tasksOf, List.flatMap_cons, entries_eq enc p rest]; rfl

theorem objects_eq (p : Id) : ∀ f : Forest, objects p f = (tasksOf p f).flatMap taskObjects
  | .nil => rfl
  | .cons ty nm uu pr kids rest => by
    rw [objects, tasksOf, List.flatMap_cons, objects_eq p rest]
    rfl

theorem objects_nil_iff (enc) (p q : Id) : ∀ f : Forest, (objects p f = [] ↔ entries enc f = [])
  | .nil => by simp [objects, entries]
  | .cons ty nm uu pr kids rest => by
    cases pr
    · simpa [objects, entries] using objects_nil_iff enc p q rest
    · simp [objects, entries]

theorem tasksOf_parent {p : Id} : ∀ {f : Forest} {c : Task}, c ∈ tasksOf p f → c.parent = p
  | .cons ty nm uu pr kids rest, c, h => by
    rw [tasksOf, List.mem_cons] at h
    rcases h with rfl | h
    · rfl
    · exact tasksOf_parent h

theorem tasksOf_depth {p : Id} : ∀ {f : Forest} {c : Task}, c ∈ tasksOf p f → c.kids.depth + 1 ≤ f.depth
  | .cons ty nm uu pr kids rest, c, h => by
    rw [tasksOf, List.mem_cons] at h
    rw [Forest.depth]
    rcases h with rfl | h
    · exact Nat.le_max_left _ _
    · exact Nat.le_trans (tasksOf_depth h) (Nat.le_max_right _ _)

theorem tasksOf_names (p : Id) : ∀ f : Forest, (tasksOf p f).map (fun c => (c.ty, c.nm)) = names f
  | .nil => rfl
  | .cons ty nm uu pr kids rest => by
    rw [tasksOf, names, List.map_cons, tasksOf_names p rest]

theorem tasksOf_eq_nil {p : Id} {f : Forest} : tasksOf p f = [] ↔ f = .nil := by
  cases f <;> simp [tasksOf]

theorem names_nodup : ∀ {f : Forest}, DistinctNames f → (names f).Nodup
  | .nil, _ => List.nodup_nil
  | .cons .., h => List.nodup_cons.mpr ⟨h.1, names_nodup h.2.2⟩

theorem tasksOf_nodup {p : Id} {f : Forest} (h : DistinctNames f) : ((tasksOf p f).map Task.id).Nodup := by
  have h1 := names_nodup h
  rw [← tasksOf_names p] at h1
  have : (tasksOf p f).map Task.id = ((tasksOf p f).map (fun c => (c.ty, c.nm))).map (fun q => p ++ [q.1, q.2]) := by
    rw [List.map_map]
    apply List.map_congr_left
    intro c hc
    simp [Task.id, tasksOf_parent hc]
  rw [this]
  refine List.Pairwise.map _ ?_ h1
  intro a b hne hab
  simp only [List.append_cancel_left_eq, List.cons.injEq, and_true] at hab
  exact hne (Prod.ext hab.1 hab.2)

/-- the conditions on the tree below a task -/
structure TaskOk (enc : Text → Text → Text → List Entry → Text) (t : Task) : Prop where
  names : DistinctNames t.kids
  full : NoEmptyParents t.kids
  order : OrderFree enc t.kids
  ownFull : t.present = true → t.kids = .nil ∨ entries enc t.kids ≠ []
  ownOrder : ∀ es, es.Perm (entries enc t.kids) → enc t.ty t.nm t.uu es = enc t.ty t.nm t.uu (entries enc t.kids)

theorem tasksOf_ok {enc} {p : Id} : ∀ {f : Forest} {c : Task}, DistinctNames f → NoEmptyParents f → OrderFree enc f →
    c ∈ tasksOf p f → TaskOk enc c
  | .cons ty nm uu pr kids rest, c, h1, h2, h3, h => by
    rw [tasksOf, List.mem_cons] at h
    rcases h with rfl | h
    · refine ⟨h1.2.1, h2.2.1, h3.2.1, ?_, h3.1⟩
      intro hp
      rcases h2.1 hp with h | h
      · exact .inl h
      · exact .inr (fun e => h ((objects_nil_iff enc [] [] kids).mpr e))
    · exact tasksOf_ok h1.2.2 h2.2.2 h3.2.2 h

/-! ### one round -/

/-- is an object that must wait for its nested objects -/
def Task.inner (t : Task) : Bool := t.present && !(tasksOf t.id t.kids).isEmpty

theorem work_first_inner {enc} {t : Task} (h : t.inner = true) : work enc (.first t) = .later t (tasksOf t.id t.kids) := by
  simp only [Task.inner, Bool.and_eq_true, Bool.not_eq_true', List.isEmpty_eq_false_iff] at h
  rw [work, if_pos h.1]
  cases hk : tasksOf t.id t.kids with
  | nil => exact absurd hk h.2
  | cons c r => rfl

theorem work_first_leaf {enc} {t : Task} (h : t.inner = false) (hp : t.present = true) :
    t.kids = .nil ∧ work enc (.first t) = .encoded t [] ⟨t.ty, t.uu, t.nm, enc t.ty t.nm t.uu []⟩ := by
  have hk : tasksOf t.id t.kids = [] := by simpa [Task.inner, hp] using h
  refine ⟨tasksOf_eq_nil.mp hk, ?_⟩
  rw [work, if_pos hp, hk]

theorem work_first_absent {enc} {t : Task} (hp : t.present = false) : work enc (.first t) = .absent := by
  rw [work, if_neg (by simp [hp])]

theorem work_second {enc} {t : Task} {es : List Entry} (hp : t.present = true) (he : es ≠ []) :
    work enc (.second t es) = .encoded t es ⟨t.ty, t.uu, t.nm, enc t.ty t.nm t.uu es⟩ := by
  rw [work, if_pos hp, if_neg he]

/-- entries with the parent they belong to -/
def taskIndex (enc : Text → Text → Text → List Entry → Text) (t : Task) : List (Id × Entry) :=
  (taskEntry enc t).map (fun e => (t.parent, e))

theorem first_entries (enc) : ∀ P : List Task,
    entriesIn ((P.map Work.first).map (work enc)) = (P.filter (fun t => !t.inner)).flatMap (taskIndex enc)
  | [] => rfl
  | t :: P => by
    have ih := first_entries enc P
    rw [entriesIn] at ih ⊢
    rw [List.map_cons, List.map_cons, List.filterMap_cons]
    cases hi : t.inner
    · rw [List.filter_cons_of_pos (by simp [hi]), List.flatMap_cons]
      cases hp : t.present
      · rw [work_first_absent hp]
        simp only [taskIndex, taskEntry, hp, Bool.false_eq_true, if_false, List.map_nil, List.nil_append]
        exact ih
      · obtain ⟨hk, hw⟩ := work_first_leaf (enc := enc) hi hp
        rw [hw]
        simp only [taskIndex, taskEntry, hp, if_true, List.map_cons, List.map_nil, hk, entries, List.cons_append,
          List.nil_append]
        rw [ih]
    · rw [List.filter_cons_of_neg (by simp [hi]), work_first_inner hi]
      exact ih

theorem first_later (enc) : ∀ P : List Task,
    laterIn ((P.map Work.first).map (work enc)) = P.filter Task.inner
  | [] => rfl
  | t :: P => by
    have ih := first_later enc P
    rw [laterIn] at ih ⊢
    rw [List.map_cons, List.map_cons, List.filterMap_cons]
    cases hi : t.inner
    · rw [List.filter_cons_of_neg (by simp [hi])]
      cases hp : t.present
      · rw [work_first_absent hp]; exact ih
      · rw [(work_first_leaf (enc := enc) hi hp).2]; exact ih
    · rw [List.filter_cons_of_pos hi, work_first_inner hi]
      simp only
      rw [ih]

theorem first_children (enc) : ∀ P : List Task,
    childrenIn ((P.map Work.first).map (work enc)) = (P.filter Task.inner).flatMap (fun t => tasksOf t.id t.kids)
  | [] => rfl
  | t :: P => by
    have ih := first_children enc P
    rw [childrenIn] at ih ⊢
    rw [List.map_cons, List.map_cons, List.flatMap_cons]
    cases hi : t.inner
    · rw [List.filter_cons_of_neg (by simp [hi])]
      cases hp : t.present
      · rw [work_first_absent hp]; exact ih
      · rw [(work_first_leaf (enc := enc) hi hp).2]; exact ih
    · rw [List.filter_cons_of_pos hi, work_first_inner hi, List.flatMap_cons]
      simp only
      rw [ih]

theorem first_logged (enc) : ∀ P : List Task,
    loggedIn ((P.map Work.first).map (work enc)) = (P.filter (fun t => t.present && !t.inner)).map (fun t => (t, []))
  | [] => rfl
  | t :: P => by
    have ih := first_logged enc P
    rw [loggedIn] at ih ⊢
    rw [List.map_cons, List.map_cons, List.filterMap_cons]
    cases hi : t.inner
    · cases hp : t.present
      · rw [work_first_absent hp, List.filter_cons_of_neg (by simp [hp])]; exact ih
      · rw [(work_first_leaf (enc := enc) hi hp).2, List.filter_cons_of_pos (by simp [hp, hi])]
        simp only [List.map_cons]
        rw [ih]
    · rw [List.filter_cons_of_neg (by simp [hi]), work_first_inner hi]
      exact ih

/-! ### handing out the nested objects -/

theorem popGroup_ok {enc} : ∀ (G : List Task) (I : List (Id × Entry)) (I1 : List (Id × Entry)),
    (G.map Task.id).Nodup → (∀ t ∈ G, entries enc t.kids ≠ []) → (∀ t ∈ G, ∀ q ∈ I1, q.1 ≠ t.id) →
    I.Perm (I1 ++ G.flatMap (fun t => (entries enc t.kids).map (fun e => (t.id, e)))) →
    ∃ ws I', popGroup I G = some (ws, I') ∧ I'.Perm I1 ∧
      List.Forall₂ (fun t w => ∃ es, w = Work.second t es ∧ es.Perm (entries enc t.kids)) G ws
  | [], I, I1, _, _, _, h => ⟨[], I, rfl, by simpa using h, .nil⟩
  | t :: G, I, I1, hn, he, hI, h => by
    rw [List.map_cons, List.nodup_cons] at hn
    have hne : ∀ g ∈ G, g.id ≠ t.id := fun g hg e => hn.1 (e ▸ List.mem_map_of_mem hg)
    -- what belongs to t
    have h1 : (I.filter (fun p => p.1 = t.id)).Perm ((entries enc t.kids).map (fun e => (t.id, e))) := by
      refine (h.filter _).trans ?_
      rw [List.filter_append, List.flatMap_cons, List.filter_append]
      have a1 : I1.filter (fun p => p.1 = t.id) = [] := by
        rw [List.filter_eq_nil_iff]; intro q hq; simpa using hI t (List.mem_cons_self) q hq
      have a2 : ((entries enc t.kids).map (fun e => (t.id, e))).filter (fun p => p.1 = t.id) =
          (entries enc t.kids).map (fun e => (t.id, e)) := by
        rw [List.filter_eq_self]; intro q hq; obtain ⟨e, _, rfl⟩ := List.mem_map.mp hq; simp
      have a3 : (G.flatMap (fun t => (entries enc t.kids).map (fun e => (t.id, e)))).filter (fun p => p.1 = t.id) = [] := by
        rw [List.filter_eq_nil_iff]; intro q hq
        obtain ⟨g, hg, hq⟩ := List.mem_flatMap.mp hq
        obtain ⟨e, _, rfl⟩ := List.mem_map.mp hq
        simpa using hne g hg
      rw [a1, a2, a3]; simp
    have h2 : (I.filter (fun p => p.1 ≠ t.id)).Perm
        (I1 ++ G.flatMap (fun t => (entries enc t.kids).map (fun e => (t.id, e)))) := by
      refine (h.filter _).trans ?_
      rw [List.filter_append, List.flatMap_cons, List.filter_append]
      have a1 : I1.filter (fun p => p.1 ≠ t.id) = I1 := by
        rw [List.filter_eq_self]; intro q hq; simpa using hI t (List.mem_cons_self) q hq
      have a2 : ((entries enc t.kids).map (fun e => (t.id, e))).filter (fun p => p.1 ≠ t.id) = [] := by
        rw [List.filter_eq_nil_iff]; intro q hq; obtain ⟨e, _, rfl⟩ := List.mem_map.mp hq; simp
      have a3 : (G.flatMap (fun t => (entries enc t.kids).map (fun e => (t.id, e)))).filter (fun p => p.1 ≠ t.id) =
          G.flatMap (fun t => (entries enc t.kids).map (fun e => (t.id, e))) := by
        rw [List.filter_eq_self]; intro q hq
        obtain ⟨g, hg, hq⟩ := List.mem_flatMap.mp hq
        obtain ⟨e, _, rfl⟩ := List.mem_map.mp hq
        simpa using hne g hg
      rw [a1, a2, a3]; simp
    obtain ⟨ws, I', p1, p2, p3⟩ := popGroup_ok G (I.filter (fun p => p.1 ≠ t.id)) I1 hn.2
      (fun g hg => he g (List.mem_cons_of_mem _ hg)) (fun g hg => hI g (List.mem_cons_of_mem _ hg)) h2
    have h3 : ((I.filter (fun p => p.1 = t.id)).map (·.2)).Perm (entries enc t.kids) := by
      have := h1.map (fun p : Id × Entry => p.2)
      simpa [List.map_map, Function.comp_def] using this
    have h4 : (I.filter (fun p => p.1 = t.id)).map (·.2) ≠ [] := by
      intro e; rw [e] at h3; exact he t List.mem_cons_self h3.nil_eq.symm
    refine ⟨.second t ((I.filter (fun p => p.1 = t.id)).map (·.2)) :: ws, I', ?_, p2, .cons ⟨_, rfl, h3⟩ p3⟩
    have : popId I t.id = some ((I.filter (fun p => p.1 = t.id)).map (·.2), I.filter (fun p => p.1 ≠ t.id)) := by
      rw [popId]
      cases hk : (I.filter (fun p => p.1 = t.id)).map (·.2) with
      | nil => exact absurd hk h4
      | cons e r => rfl
    rw [popGroup, this]
    simp only [Option.bind_some]
    rw [p1]; rfl

/-! ### the second pass -/

theorem second_round {enc} : ∀ {G : List Task} {ws : List Work},
    List.Forall₂ (fun t w => ∃ es, w = Work.second t es ∧ es.Perm (entries enc t.kids)) G ws →
    (∀ t ∈ G, TaskOk enc t ∧ t.present = true ∧ entries enc t.kids ≠ []) →
    laterIn (ws.map (work enc)) = [] ∧ childrenIn (ws.map (work enc)) = [] ∧
    entriesIn (ws.map (work enc)) = G.flatMap (taskIndex enc) ∧
    List.Forall₂ (fun t (l : Task × List Entry) => l.1 = t ∧ l.2.Perm (entries enc t.kids)) G (loggedIn (ws.map (work enc)))
  | _, _, .nil, _ => ⟨rfl, rfl, rfl, .nil⟩
  | t :: G, _ :: ws, .cons ⟨es, hw, hes⟩ hr, h => by
    subst hw
    obtain ⟨a1, a2, a3, a4⟩ := second_round hr (fun g hg => h g (List.mem_cons_of_mem _ hg))
    obtain ⟨h1, h2, h3⟩ := h t List.mem_cons_self
    have hne : es ≠ [] := by intro e; subst e; exact h3 hes.nil_eq.symm
    have hwk := work_second (enc := enc) h2 hne
    rw [List.map_cons, hwk, h1.ownOrder es hes]
    refine ⟨?_, ?_, ?_, ?_⟩
    · simpa [laterIn] using a1
    · rw [childrenIn, List.flatMap_cons]; exact a2
    · rw [entriesIn, List.filterMap_cons, List.flatMap_cons]
      simp only [taskIndex, taskEntry, h2, if_true, List.map_cons, List.map_nil, List.cons_append, List.nil_append]
      rw [entriesIn] at a3
      rw [a3]
    · rw [loggedIn, List.filterMap_cons]
      exact .cons ⟨rfl, hes⟩ a4

/-! ### permutations -/

theorem filter_split {α : Type} (p : α → Bool) (l : List α) : l.Perm (l.filter (fun a => !p a) ++ l.filter p) := by
  have := (List.filter_append_perm p l).symm
  exact this.trans List.perm_append_comm

theorem flatMap_perm {α β : Type} {l l' : List α} (h : l.Perm l') (f : α → List β) : (l.flatMap f).Perm (l'.flatMap f) := by
  exact h.flatMap_right f

theorem children_index (enc) (t : Task) :
    (tasksOf t.id t.kids).flatMap (taskIndex enc) = (entries enc t.kids).map (fun e => (t.id, e)) := by
  rw [entries_eq enc t.id, List.map_flatMap]
  apply List.flatMap_congr
  intro c hc
  rw [taskIndex, tasksOf_parent hc]

theorem perm_later {rs rs' : List Res} (h : rs.Perm rs') : (laterIn rs).Perm (laterIn rs') := h.filterMap _
theorem perm_entries {rs rs' : List Res} (h : rs.Perm rs') : (entriesIn rs).Perm (entriesIn rs') := h.filterMap _
theorem perm_logged {rs rs' : List Res} (h : rs.Perm rs') : (loggedIn rs).Perm (loggedIn rs') := h.filterMap _
theorem perm_children {rs rs' : List Res} (h : rs.Perm rs') : (childrenIn rs).Perm (childrenIn rs') := h.flatMap_right _

/-! ### a whole level with everything below it -/

theorem objects_prefix {p : Id} : ∀ {f : Forest} {c : Task}, c ∈ objects p f → p <+: c.id ∧ p.length + 2 ≤ c.id.length
  | .cons ty nm uu pr kids rest, c, h => by
    rw [objects, List.mem_append] at h
    rcases h with h | h
    · cases pr
      · simp at h
      · rw [if_pos rfl, List.mem_cons] at h
        rcases h with rfl | h
        · exact ⟨List.prefix_append _ _, by simp [Task.id]⟩
        · obtain ⟨h1, h2⟩ := objects_prefix h
          refine ⟨(List.prefix_append _ _).trans h1, ?_⟩
          simp at h2; omega
    · exact objects_prefix h

theorem taskObjects_prefix {t c : Task} (h : c ∈ taskObjects t) : t.id <+: c.id := by
  rw [taskObjects] at h
  cases hp : t.present
  · simp [hp] at h
  · rw [if_pos hp, List.mem_cons] at h
    rcases h with rfl | h
    · exact List.prefix_refl _
    · exact (objects_prefix h).1

theorem Task.id_length (t : Task) : t.id.length = t.parent.length + 2 := by simp [Task.id]

/-- what the log of a level has to be -/
structure LogOk (enc : Text → Text → Text → List Entry → Text) (P : List Task) (M : List (Task × List Entry)) : Prop where
  once : (M.map (·.1)).Perm (P.flatMap taskObjects)
  given : ∀ x ∈ M, x.2.Perm (entries enc x.1.kids)
  order : M.Pairwise (fun a b => ¬ a.1.id <+: b.1.id)

/-- where a level ends -/
def Reached (enc : Text → Text → Text → List Entry → Text) (S : List (List Task)) (I : List (Id × Entry))
    (L : List (Task × List Entry)) (P : List Task) (o : Option State) : Prop :=
  ∃ I' M, o = handOut S I' (L ++ M) ∧ I'.Perm (I ++ P.flatMap (taskIndex enc)) ∧ LogOk enc P M

theorem same_id_prefix {a b : Task} (hl : a.parent.length = b.parent.length) (h : a.id <+: b.id) : a.id = b.id := by
  apply h.eq_of_length
  rw [a.id_length, b.id_length, hl]

theorem id_inj {P : List Task} (h : (P.map Task.id).Nodup) {a b : Task} (ha : a ∈ P) (hb : b ∈ P) (e : a.id = b.id) : a = b := by
  induction P with
  | nil => cases ha
  | cons t P ih =>
    rw [List.map_cons, List.nodup_cons] at h
    rcases List.mem_cons.mp ha with rfl | ha'
    · rcases List.mem_cons.mp hb with rfl | hb'
      · rfl
      · exact absurd (e ▸ List.mem_map_of_mem hb') h.1
    · rcases List.mem_cons.mp hb with rfl | hb'
      · exact absurd (e ▸ List.mem_map_of_mem ha') h.1
      · exact ih h.2 ha' hb'

theorem leaf_kids {t : Task} (h : (t.present && !t.inner) = true) : t.present = true ∧ t.kids = .nil := by
  simp only [Bool.and_eq_true, Bool.not_eq_true'] at h
  have hk : tasksOf t.id t.kids = [] := by simpa [Task.inner, h.1] using h.2
  exact ⟨h.1, tasksOf_eq_nil.mp hk⟩

theorem leaves_objects : ∀ P : List Task,
    (P.filter (fun t => !t.inner)).flatMap taskObjects = P.filter (fun t => t.present && !t.inner)
  | [] => rfl
  | t :: P => by
    have ih := leaves_objects P
    cases hi : t.inner
    · rw [List.filter_cons_of_pos (by simp [hi]), List.flatMap_cons, ih]
      cases hp : t.present
      · rw [List.filter_cons_of_neg (by simp [hp])]; simp [taskObjects, hp]
      · have := (leaf_kids (t := t) (by simp [hp, hi])).2
        rw [List.filter_cons_of_pos (by simp [hp, hi])]; simp [taskObjects, hp, this, objects]
    · rw [List.filter_cons_of_neg (by simp [hi]), List.filter_cons_of_neg (by simp [hi]), ih]

theorem nodup_pairwise {P : List Task} {d : Nat} (hlen : ∀ t ∈ P, t.parent.length = d) (hnd : (P.map Task.id).Nodup)
    {A : List (Task × List Entry)} (hA : (A.map (·.1)).Subperm P) : A.Pairwise (fun a b => ¬ a.1.id <+: b.1.id) := by
  have h1 : (A.map (fun a => a.1.id)).Nodup := by
    obtain ⟨l, hl, hs⟩ := hA
    have := (hl.map Task.id).nodup_iff.mp (hnd.sublist (hs.map _))
    rwa [List.map_map] at this
  have h2 : A.Pairwise (fun a b => a.1.id ≠ b.1.id) := List.pairwise_map.mp h1
  refine h2.imp_of_mem ?_
  intro a b ha hb hne hpre
  have ma := hA.subset (List.mem_map_of_mem ha)
  have mb := hA.subset (List.mem_map_of_mem hb)
  exact hne (same_id_prefix ((hlen _ ma).trans (hlen _ mb).symm) hpre)

/-- a level without objects that must wait -/
theorem level_leaves {enc : Text → Text → Text → List Entry → Text} {d : Nat} {P : List Task} {S : List (List Task)}
    {I : List (Id × Entry)} {L : List (Task × List Entry)} (hP : P ≠ []) (hin : P.filter Task.inner = [])
    (hlen : ∀ t ∈ P, t.parent.length = d) (hnd : (P.map Task.id).Nodup) :
    Inevitably enc (Reached enc S I L P) (some ⟨P.map .first, S, I, L⟩) := by
  refine .step ⟨_, .inl (by simpa using hP), _, List.Perm.refl _, rfl⟩ ?_
  rintro _ ⟨_, rs, hrs, rfl⟩
  refine .here ?_
  have hni : P.filter (fun t => !t.inner) = P := by
    rw [List.filter_eq_self]
    intro t ht
    rw [List.filter_eq_nil_iff] at hin
    simpa using hin t ht
  have hl : laterIn rs = [] := by
    have := perm_later hrs; simp only [first_later, hin] at this; exact this.eq_nil
  have hc : childrenIn rs = [] := by
    have := perm_children hrs; simp only [first_children, hin] at this; exact this.eq_nil
  have he := perm_entries hrs
  rw [first_entries, hni] at he
  have hg := perm_logged hrs
  rw [first_logged] at hg
  have hg1 : ((loggedIn rs).map (·.1)).Perm (P.filter (fun t => t.present && !t.inner)) := by
    have := hg.map (fun x : Task × List Entry => x.1)
    simpa [List.map_map, Function.comp_def] using this
  rw [advance, hl, hc]
  refine ⟨_, _, rfl, he.append_left _, ?_, ?_, ?_⟩
  · have := leaves_objects P; rw [hni] at this; rw [this]; exact hg1
  · intro x hx
    have := hg.subset hx
    obtain ⟨t, ht, rfl⟩ := List.mem_map.mp this
    rw [(leaf_kids (List.mem_filter.mp ht).2).2]; exact .refl _
  · exact nodup_pairwise hlen hnd (hg1.subperm.trans (List.filter_sublist.subperm))

theorem forall₂_fst {enc : Text → Text → Text → List Entry → Text} : ∀ {G : List Task} {M : List (Task × List Entry)},
    List.Forall₂ (fun t (l : Task × List Entry) => l.1 = t ∧ l.2.Perm (entries enc t.kids)) G M →
    M.map (·.1) = G ∧ ∀ x ∈ M, x.2.Perm (entries enc x.1.kids)
  | _, _, .nil => ⟨rfl, by simp⟩
  | _, _, .cons ⟨h1, h2⟩ hr => by
    obtain ⟨a, b⟩ := forall₂_fst hr
    refine ⟨by rw [List.map_cons, a, h1], ?_⟩
    intro x hx
    rcases List.mem_cons.mp hx with rfl | hx
    · rw [h1]; exact h2
    · exact b x hx

theorem run_level (enc : Text → Text → Text → List Entry → Text) : ∀ (n d : Nat) (P : List Task) (S : List (List Task))
    (I : List (Id × Entry)) (L : List (Task × List Entry)), P ≠ [] → (∀ t ∈ P, t.kids.depth ≤ n) →
    (∀ t ∈ P, t.parent.length = d) → (P.map Task.id).Nodup → (∀ t ∈ P, TaskOk enc t) → (∀ q ∈ I, q.1.length ≤ d) →
    Inevitably enc (Reached enc S I L P) (some ⟨P.map .first, S, I, L⟩) := by
  intro n
  induction n with
  | zero =>
    intro d P S I L hP hdep hlen hnd hok hI
    refine level_leaves hP ?_ hlen hnd
    rw [List.filter_eq_nil_iff]
    intro t ht
    have := hdep t ht
    have hk : t.kids = .nil := by
      cases hk : t.kids with
      | nil => rfl
      | cons => rw [hk, Forest.depth] at this; omega
    simp [Task.inner, hk, tasksOf]
  | succ n ih =>
    intro d P S I L hP hdep hlen hnd hok hI
    by_cases hin : P.filter Task.inner = []
    · exact level_leaves hP hin hlen hnd
    refine .step ⟨_, .inl (by simpa using hP), _, List.Perm.refl _, rfl⟩ ?_
    rintro _ ⟨_, rs, hrs, rfl⟩
    have hl : (laterIn rs).Perm (P.filter Task.inner) := by
      have := perm_later hrs; rwa [first_later] at this
    have hc : (childrenIn rs).Perm ((laterIn rs).flatMap (fun t => tasksOf t.id t.kids)) := by
      have := perm_children hrs; rw [first_children] at this
      exact this.trans (flatMap_perm hl _).symm
    have he := perm_entries hrs
    rw [first_entries] at he
    have hg := perm_logged hrs
    rw [first_logged] at hg
    have hg1 : ((loggedIn rs).map (·.1)).Perm (P.filter (fun t => t.present && !t.inner)) := by
      have := hg.map (fun x : Task × List Entry => x.1)
      simpa [List.map_map, Function.comp_def] using this
    have hlne : laterIn rs ≠ [] := by intro e; rw [e] at hl; exact hin hl.nil_eq.symm
    -- facts about the put-off objects
    have hGP : ∀ t ∈ laterIn rs, t ∈ P ∧ t.inner = true := by
      intro t ht; exact List.mem_filter.mp (hl.subset ht)
    have hGnd : ((laterIn rs).map Task.id).Nodup :=
      (hl.map Task.id).nodup_iff.mpr (hnd.sublist (List.filter_sublist.map _))
    have hGf : ∀ t ∈ laterIn rs, TaskOk enc t ∧ t.present = true ∧ entries enc t.kids ≠ [] := by
      intro t ht
      obtain ⟨h1, h2⟩ := hGP t ht
      simp only [Task.inner, Bool.and_eq_true, Bool.not_eq_true', List.isEmpty_eq_false_iff] at h2
      refine ⟨hok t h1, h2.1, ?_⟩
      rcases (hok t h1).ownFull h2.1 with h | h
      · rw [h] at h2; exact absurd rfl h2.2
      · exact h
    generalize hG : laterIn rs = G at *
    generalize hC : childrenIn rs = C at *
    generalize hA : loggedIn rs = A at *
    generalize hE : entriesIn rs = E at *
    have hCmem : ∀ c ∈ C, ∃ t ∈ G, c ∈ tasksOf t.id t.kids := by
      intro c h; exact List.mem_flatMap.mp (hc.subset h)
    have hCne : C ≠ [] := by
      intro e
      rw [e] at hc
      have h0 := hc.nil_eq.symm
      cases G with
      | nil => exact hlne rfl
      | cons t r =>
        rw [List.flatMap_cons, List.append_eq_nil_iff] at h0
        have := (hGP t List.mem_cons_self).2
        simp [Task.inner, h0.1] at this
    have hadv : advance ⟨P.map .first, S, I, L⟩ rs = some ⟨C.map .first, G :: S, I ++ E, L ++ A⟩ := by
      rw [advance]
      simp only [hG, hC, hA, hE, if_neg hlne]
      cases C with
      | nil => exact absurd rfl hCne
      | cons c cs => rfl
    rw [hadv]
    have hElen : ∀ q ∈ E, q.1.length = d := by
      intro q hq
      have := he.subset hq
      obtain ⟨t, ht, hq⟩ := List.mem_flatMap.mp this
      obtain ⟨e, _, rfl⟩ := List.mem_map.mp hq
      exact hlen t (List.mem_filter.mp ht).1
    have hIElen : ∀ q ∈ I ++ E, q.1.length ≤ d := by
      intro q hq
      rcases List.mem_append.mp hq with h | h
      · exact hI q h
      · exact Nat.le_of_eq (hElen q h)
    refine (ih (d + 2) C (G :: S) (I ++ E) (L ++ A) hCne ?_ ?_ ?_ ?_ ?_).bind ?_
    · intro c h
      obtain ⟨t, ht, hct⟩ := hCmem c h
      have h1 := tasksOf_depth hct
      have h2 := hdep t (hGP t ht).1
      omega
    · intro c h
      obtain ⟨t, ht, hct⟩ := hCmem c h
      rw [tasksOf_parent hct, t.id_length, hlen t (hGP t ht).1]
    · -- the new tasks have distinct identifications
      refine (hc.map Task.id).nodup_iff.mpr ?_
      rw [List.map_flatMap]
      refine List.nodup_flatMap.mpr ⟨?_, ?_⟩
      · intro t ht; exact tasksOf_nodup (hGf t ht).1.names
      · have h2 : G.Pairwise (fun a b => a.id ≠ b.id) := List.pairwise_map.mp hGnd
        refine h2.imp_of_mem ?_
        intro a b ha hb hne
        intro x hx hx'
        obtain ⟨c, hc1, rfl⟩ := List.mem_map.mp hx
        obtain ⟨c', hc2, e⟩ := List.mem_map.mp hx'
        apply hne
        rw [Task.id, Task.id, tasksOf_parent hc1, tasksOf_parent hc2] at e
        have hl' : b.id.length = a.id.length := by
          rw [a.id_length, b.id_length, hlen a (hGP a ha).1, hlen b (hGP b hb).1]
        exact ((List.append_inj e hl').1).symm
    · intro c h
      obtain ⟨t, ht, hct⟩ := hCmem c h
      have ok := (hGf t ht).1
      exact tasksOf_ok ok.names ok.full ok.order hct
    · intro q hq; have := hIElen q hq; omega
    · -- the level below is finished: hand out and encode the put-off objects
      rintro _ ⟨I2, M, rfl, hI2, hM⟩
      have hI2' : I2.Perm ((I ++ E) ++ G.flatMap (fun t => (entries enc t.kids).map (fun e => (t.id, e)))) := by
        refine hI2.trans (List.Perm.append_left _ ?_)
        refine (flatMap_perm hc _).trans ?_
        rw [List.flatMap_assoc]
        refine List.Perm.of_eq (List.flatMap_congr ?_)
        intro t _
        exact children_index enc t
      obtain ⟨ws, I3, hp1, hp2, hp3⟩ := popGroup_ok (enc := enc) G I2 (I ++ E) hGnd (fun t ht => (hGf t ht).2.2) (by
        intro t ht q hq e
        have h1 := hIElen q hq
        rw [e, t.id_length, hlen t (hGP t ht).1] at h1
        omega) hI2'
      obtain ⟨s1, s2, s3, s4⟩ := second_round hp3 hGf
      have hws : ws ≠ [] := by
        intro e; subst e; cases hp3; exact hlne rfl
      rw [handOut, hp1]
      simp only [Option.map_some]
      refine .step ⟨_, .inl hws, _, List.Perm.refl _, rfl⟩ ?_
      rintro _ ⟨_, rs', hrs', rfl⟩
      refine .here ?_
      have t1 : laterIn rs' = [] := by have := perm_later hrs'; simp only [s1] at this; exact this.eq_nil
      have t2 : childrenIn rs' = [] := by have := perm_children hrs'; simp only [s2] at this; exact this.eq_nil
      have t3 := perm_entries hrs'
      simp only [s3] at t3
      have t4 := perm_logged hrs'
      obtain ⟨f1, f2⟩ := forall₂_fst s4
      have t5 : ((loggedIn rs').map (·.1)).Perm G := by
        have := t4.map (fun x : Task × List Entry => x.1); simp only [f1] at this; exact this
      rw [advance, t1, t2]
      refine ⟨I3 ++ entriesIn rs', A ++ (M ++ loggedIn rs'), ?_, ?_, ?_, ?_, ?_⟩
      · simp only [if_true]
        rw [List.append_assoc, List.append_assoc]
      · -- the index
        have hsplit := flatMap_perm (filter_split Task.inner P) (taskIndex enc)
        rw [List.flatMap_append] at hsplit
        have b1 : (G.flatMap (taskIndex enc)).Perm ((P.filter Task.inner).flatMap (taskIndex enc)) := flatMap_perm hl _
        refine (hp2.append t3).trans ?_
        rw [List.append_assoc]
        refine List.Perm.append_left _ ?_
        exact (he.append b1).trans hsplit.symm
      · -- every object once
        rw [List.map_append, List.map_append]
        have hsplit := flatMap_perm (filter_split Task.inner P) taskObjects
        rw [List.flatMap_append, leaves_objects] at hsplit
        refine (hg1.append ?_).trans hsplit.symm
        have b1 : (G.flatMap taskObjects).Perm ((P.filter Task.inner).flatMap taskObjects) := flatMap_perm hl _
        refine List.Perm.trans ?_ b1
        refine ((hM.once.trans (flatMap_perm hc _)).append t5).trans ?_
        rw [List.flatMap_assoc]
        refine List.perm_append_comm.trans ?_
        have b2 : (G.flatMap taskObjects) = G.flatMap (fun t => [t] ++ (tasksOf t.id t.kids).flatMap taskObjects) := by
          apply List.flatMap_congr
          intro t ht
          rw [taskObjects, if_pos (hGf t ht).2.1, objects_eq]; rfl
        rw [b2]
        have b3 : G = G.flatMap (fun t => [t]) := by simp
        conv_lhs => rw [b3]
        rw [List.flatMap_assoc]
        simp only [List.flatMap_singleton]
        exact (List.flatMap_append_perm G (fun t => [t]) (fun t => (tasksOf t.id t.kids).flatMap taskObjects))
      · -- with the entries of its nested objects
        intro x hx
        rcases List.mem_append.mp hx with h | h
        · obtain ⟨t, ht, rfl⟩ := List.mem_map.mp (hg.subset h)
          rw [(leaf_kids (List.mem_filter.mp ht).2).2]; exact .refl _
        · rcases List.mem_append.mp h with h | h
          · exact hM.given x h
          · exact f2 x (t4.subset h)
      · -- nested objects first
        have hMmem : ∀ m ∈ M, ∃ t ∈ G, t.id <+: m.1.id ∧ t.id.length + 2 ≤ m.1.id.length := by
          intro m hm
          have h1 := hM.once.subset (List.mem_map_of_mem hm)
          obtain ⟨c, hcC, hmc⟩ := List.mem_flatMap.mp h1
          obtain ⟨t, ht, hct⟩ := hCmem c hcC
          have h2 := taskObjects_prefix hmc
          have h3 : t.id <+: c.id := by rw [← tasksOf_parent hct]; exact List.prefix_append _ _
          refine ⟨t, ht, h3.trans h2, ?_⟩
          have := h2.length_le
          rw [c.id_length, tasksOf_parent hct] at this
          exact this
        have hAP : ∀ a ∈ A, a.1 ∈ P ∧ a.1.inner = false := by
          intro a ha
          have h1 := List.mem_filter.mp (hg1.subset (List.mem_map_of_mem ha))
          refine ⟨h1.1, ?_⟩
          have := h1.2
          simp only [Bool.and_eq_true, Bool.not_eq_true'] at this
          exact this.2
        have hBG : ∀ b ∈ loggedIn rs', b.1 ∈ G := fun b hb => t5.subset (List.mem_map_of_mem hb)
        have hAG : ∀ a ∈ A, ∀ t ∈ G, a.1.id ≠ t.id := by
          intro a ha t ht e
          have := id_inj hnd (hAP a ha).1 (hGP t ht).1 e
          have h1 := (hAP a ha).2
          rw [this, (hGP t ht).2] at h1
          cases h1
        rw [List.pairwise_append, List.pairwise_append]
        refine ⟨nodup_pairwise hlen hnd (hg1.subperm.trans List.filter_sublist.subperm),
          ⟨hM.order, nodup_pairwise hlen hnd ((t5.trans hl).subperm.trans List.filter_sublist.subperm), ?_⟩, ?_⟩
        · intro m hm b hb hpre
          obtain ⟨t, ht, _, h2⟩ := hMmem m hm
          have h3 := hpre.length_le
          rw [b.1.id_length, hlen _ (hGP _ (hBG b hb)).1] at h3
          rw [t.id_length, hlen t (hGP t ht).1] at h2
          omega
        · intro a ha x hx hpre
          rcases List.mem_append.mp hx with h | h
          · obtain ⟨t, ht, h1, _⟩ := hMmem x h
            apply hAG a ha t ht
            have hl' : a.1.id.length = t.id.length := by
              rw [a.1.id_length, t.id_length, hlen _ (hAP a ha).1, hlen t (hGP t ht).1]
            exact (List.prefix_of_prefix_length_le hpre h1 (Nat.le_of_eq hl')).eq_of_length hl'
          · have hb := hBG x h
            exact hAG a ha x.1 hb (same_id_prefix ((hlen _ (hAP a ha).1).trans (hlen _ (hGP _ hb).1).symm) hpre)

end V8.Encode
