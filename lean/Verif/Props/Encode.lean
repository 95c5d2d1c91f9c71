import Verif.IncludeLemmas
import Verif.DecodeLoop
/-
C25, C26, C27, C48: conversion of the object tree in a process pool.
-/
namespace V8.Encode

/-! ### C25 -/

/-- **C25**: when no task fails, the results are the results of all tasks, in whatever order the workers finish -/
theorem C25_same_results {α : Type} (results : List (List α)) (order : List (Outcome α))
    (h : order.Perm (results.map Outcome.ok)) : ∃ r, runInPool order [] = .done r ∧ r.Perm results.flatten := by
  have hk : ∀ o ∈ order, ∃ x, o = Outcome.ok x := by
    intro o ho
    obtain ⟨r, _, rfl⟩ := List.mem_map.mp (h.subset ho)
    exact ⟨r, rfl⟩
  let g : Outcome α → List α := fun o => match o with | .ok r => r | _ => []
  refine ⟨_, runInPool_ok order [] g ?_, ?_⟩
  · intro o ho
    obtain ⟨x, rfl⟩ := hk o ho
    rfl
  · rw [List.nil_append]
    refine (h.flatMap_right g).trans ?_
    rw [List.flatMap_map]
    exact .of_eq (by simp [g])

/-- **C25**: a failing task makes the whole run fail, in whatever order the workers finish -/
theorem C25_failure_reported {α : Type} (outcomes order : List (Outcome α)) (h : order.Perm outcomes)
    (hf : ∃ o ∈ outcomes, ∀ r, o ≠ .ok r) : ∀ r, runInPool order [] ≠ .done r := by
  refine runInPool_fail order [] ?_
  obtain ⟨o, ho, hr⟩ := hf
  exact ⟨o, h.symm.subset ho, hr⟩

example : ([.ok [3], .ok [1, 2]] : List (Outcome Nat)).Perm ([[1, 2], [3]].map Outcome.ok) := .swap _ _ _
example : ∃ o ∈ ([.ok [3], .ext ['x']] : List (Outcome Nat)), ∀ r, o ≠ .ok r := ⟨.ext ['x'], by simp, by simp⟩

/-! ### C26 -/

/-- **C26**: whatever orders the pool delivers its results in, the assembling of the object tree ends after finitely many rounds,
without error, and then
- every object was encoded exactly once,
- every object was encoded with the entries of exactly its nested objects,
- no object was encoded before one that lies below it,
- what is left for the root is exactly one entry for each of its objects. -/
theorem C26_each_once_children_first (enc : Text → Text → Text → List Entry → Text) (root : Id) (f : Forest)
    (hd : DistinctNames f) (hn : NoEmptyParents f) (ho : OrderFree enc f) :
    Inevitably enc (fun o => ∃ s, o = some s ∧ ¬ s.running ∧
      (s.log.map (·.1)).Perm (objects root f) ∧
      (∀ x ∈ s.log, x.2.Perm (entries enc x.1.kids)) ∧
      s.log.Pairwise (fun earlier later => ¬ earlier.1.id <+: later.1.id) ∧
      s.index.Perm ((entries enc f).map (fun e => (root, e)))) (some (initState root f)) := by
  by_cases h0 : tasksOf root f = []
  · have hf : f = .nil := tasksOf_eq_nil.mp h0
    subst hf
    refine .here ⟨_, rfl, by simp [State.running, initState, tasksOf], .refl _, by simp [initState], .nil, .refl _⟩
  · refine (run_level enc f.depth root.length (tasksOf root f) [] [] [] h0 ?_ ?_ (tasksOf_nodup hd) ?_ (by simp)).mono ?_
    · intro t ht; have := tasksOf_depth ht; omega
    · intro t ht; rw [tasksOf_parent ht]
    · intro t ht; exact tasksOf_ok hd hn ho ht
    · rintro _ ⟨I, M, rfl, hI, hM⟩
      refine ⟨_, rfl, by simp [State.running], ?_, ?_, ?_, ?_⟩
      · rw [objects_eq]; simpa using hM.once
      · simpa using hM.given
      · simpa using hM.order
      · refine hI.trans (.of_eq ?_)
        rw [List.nil_append, entries_eq enc root, List.map_flatMap]
        apply List.flatMap_congr
        intro c hc
        rw [taskIndex, tasksOf_parent hc]

theorem objects_ids_nodup {p : Id} : ∀ {f : Forest}, DistinctNames f → ((objects p f).map Task.id).Nodup
  | .nil, _ => List.nodup_nil
  | .cons ty nm uu pr kids rest, h => by
    have ih1 := objects_ids_nodup (p := p ++ [ty, nm]) h.2.1
    have ih2 := objects_ids_nodup (p := p) h.2.2
    rw [objects]
    cases pr
    · simpa using ih2
    · rw [if_pos rfl, List.map_append, List.nodup_append]
      refine ⟨?_, ih2, ?_⟩
      · rw [List.map_cons, List.nodup_cons]
        refine ⟨?_, ih1⟩
        intro hm
        obtain ⟨c, hc, e⟩ := List.mem_map.mp hm
        have := (objects_prefix hc).2
        rw [e] at this
        simp [Task.id] at this
        omega
      · intro a ha b hb e
        subst e
        have h1 : p ++ [ty, nm] <+: a := by
          obtain ⟨c, hc, rfl⟩ := List.mem_map.mp ha
          rcases List.mem_cons.mp hc with rfl | hc
          · exact List.prefix_refl _
          · exact (objects_prefix hc).1
        obtain ⟨c, hc, rfl⟩ := List.mem_map.mp hb
        rw [objects_eq, List.mem_flatMap] at hc
        obtain ⟨t, ht, hc⟩ := hc
        have h2 := taskObjects_prefix hc
        have hl : (p ++ [ty, nm]).length = t.id.length := by rw [t.id_length, tasksOf_parent ht]; simp
        have h3 := (List.prefix_of_prefix_length_le h1 h2 (Nat.le_of_eq hl)).eq_of_length hl
        rw [Task.id, tasksOf_parent ht, List.append_cancel_left_eq] at h3
        simp only [List.cons.injEq, and_true] at h3
        apply h.1
        rw [← tasksOf_names p, h3.1, h3.2]
        exact List.mem_map.mpr ⟨t, ht, rfl⟩

/-- **C26**: the objects of the tree have different identifications, so "every object once" means that no identification is
encoded twice -/
theorem C26_no_id_twice (root : Id) (f : Forest) (hd : DistinctNames f) : ((objects root f).map Task.id).Nodup :=
  objects_ids_nodup hd

/-- **C26**: identifications are written as texts with slashes (`parent/type/name`); as folder names contain no slash, different
identifications give different texts -/
theorem C26_ids_as_text (a b : Id) (ha : ∀ p ∈ a, '/' ∉ p) (hb : ∀ p ∈ b, '/' ∉ p) (hna : a ≠ []) (hnb : b ≠ [])
    (h : Str.join '/' a = Str.join '/' b) : a = b := by
  rw [← Str.split_join '/' a hna ha, ← Str.split_join '/' b hnb hb, h]

/-- C26, limit: an object all of whose nested folders lack description files makes the build fail (KeyError), whatever the
schedule -/
theorem C26_empty_parent_fails (enc : Text → Text → Text → List Entry → Text) (root : Id) (ty nm uu : Text) (kids : Forest)
    (hk : kids ≠ .nil) (he : ∀ t ∈ tasksOf (root ++ [ty, nm]) kids, t.present = false) :
    Inevitably enc (fun o => o = none) (some (initState root (.cons ty nm uu true kids .nil))) := by
  have hin : Task.inner ⟨root, ty, nm, uu, true, kids⟩ = true := by
    simp only [Task.inner, Bool.true_and, Bool.not_eq_true', List.isEmpty_eq_false_iff, ne_eq, tasksOf_eq_nil]
    exact hk
  refine .step ⟨_, .inl (by simp [initState, tasksOf]), _, List.Perm.refl _, rfl⟩ ?_
  rintro _ ⟨_, rs, hrs, rfl⟩
  have hrs' : rs = [.later ⟨root, ty, nm, uu, true, kids⟩ (tasksOf (root ++ [ty, nm]) kids)] := by
    have : (initState root (.cons ty nm uu true kids .nil)).pending.map (work enc) =
        [.later ⟨root, ty, nm, uu, true, kids⟩ (tasksOf (root ++ [ty, nm]) kids)] := by
      simp only [initState, tasksOf, List.map_cons, List.map_nil]
      rw [work_first_inner hin]; rfl
    rw [this] at hrs
    exact List.perm_singleton.mp hrs
  subst hrs'
  have hadv : advance (initState root (.cons ty nm uu true kids .nil))
      [.later ⟨root, ty, nm, uu, true, kids⟩ (tasksOf (root ++ [ty, nm]) kids)] =
      some ⟨(tasksOf (root ++ [ty, nm]) kids).map .first, [[⟨root, ty, nm, uu, true, kids⟩]], [], []⟩ := by
    have : tasksOf (root ++ [ty, nm]) kids ≠ [] := by rw [ne_eq, tasksOf_eq_nil]; exact hk
    simp only [advance, laterIn, childrenIn, entriesIn, loggedIn, initState, List.filterMap_cons, List.filterMap_nil,
      List.flatMap_cons, List.flatMap_nil, List.append_nil]
    cases hc : tasksOf (root ++ [ty, nm]) kids with
    | nil => exact absurd hc this
    | cons c r => simp
  rw [hadv]
  have hne : (tasksOf (root ++ [ty, nm]) kids).map Work.first ≠ [] := by
    simp only [ne_eq, List.map_eq_nil_iff, tasksOf_eq_nil]; exact hk
  refine .step ⟨_, .inl hne, _, List.Perm.refl _, rfl⟩ ?_
  rintro _ ⟨_, rs, hrs, rfl⟩
  refine .here ?_
  have hall : ∀ r ∈ rs, r = .absent := by
    intro r hr
    have := hrs.subset hr
    simp only [List.map_map] at this
    obtain ⟨t, ht, rfl⟩ := List.mem_map.mp this
    exact work_first_absent (he t ht)
  have hrep : ∃ n, rs = List.replicate n .absent := ⟨rs.length, List.eq_replicate_iff.mpr ⟨rfl, hall⟩⟩
  obtain ⟨n, rfl⟩ := hrep
  have e1 : laterIn (List.replicate n Res.absent) = [] := by
    rw [laterIn, List.filterMap_eq_nil_iff]; intro a ha; rw [List.eq_of_mem_replicate ha]
  have e2 : childrenIn (List.replicate n Res.absent) = [] := by
    rw [childrenIn, List.flatMap_eq_nil_iff]; intro a ha; rw [List.eq_of_mem_replicate ha]
  have e3 : entriesIn (List.replicate n Res.absent) = [] := by
    rw [entriesIn, List.filterMap_eq_nil_iff]; intro a ha; rw [List.eq_of_mem_replicate ha]
  rw [advance, e1, e2, e3]
  rfl

/-- sample tree: a catalog with a form and a tabular section, which has an attribute; a second catalog -/
def sampleForest : Forest :=
  .cons ['C'] ['A'] ['1'] true
    (.cons ['F'] ['f'] ['2'] true .nil (.cons ['T'] ['t'] ['3'] true (.cons ['R'] ['r'] ['4'] true .nil .nil) .nil))
    (.cons ['C'] ['B'] ['5'] true .nil .nil)

example : DistinctNames sampleForest := by simp [sampleForest, DistinctNames, names]
example : NoEmptyParents sampleForest := by simp [sampleForest, NoEmptyParents, objects]
example : OrderFree (fun _ _ u es => u ++ (toString es.length).toList) sampleForest := by
  have h : ∀ (u : Text) (es es' : List Entry), es.Perm es' → u ++ (toString es.length).toList = u ++ (toString es'.length).toList :=
    fun u es es' h => by rw [h.length_eq]
  exact ⟨fun es => h _ es _, ⟨fun es => h _ es _, trivial, ⟨fun es => h _ es _, ⟨fun es => h _ es _, trivial, trivial⟩, trivial⟩⟩,
    ⟨fun es => h _ es _, trivial, trivial⟩⟩
example : (objects [] sampleForest).length = 5 := by decide
example : ∀ t ∈ tasksOf ([] ++ [['C'], ['A']]) (.cons ['F'] ['f'] ['2'] false .nil .nil), t.present = false := by
  simp [tasksOf]

/-! ### C27 -/

/-- **C27**: with automatic inclusion the list holds all nested objects of the type, in name order, with their number -/
theorem C27_auto_in_name_order (T : Types) (es : List Entry) (ty u : Text) (hu : T.uuidOf ty = some u) :
    ∃ l : List Entry, l.Perm (es.filter (fun e => e.ty = ty)) ∧ l.Pairwise (fun a b => textLe a.nm b.nm = true) ∧
      fillSlot T es (.auto ty) = some (.typed u l.length (l.map (fun e => .data e.data))) := by
  refine ⟨sortBy Entry.nm (ofType ty es), sortBy_perm _ _, sortBy_sorted _ _, ?_⟩
  rw [fillSlot, hu]
  simp

theorem fillItems_spec {es : List Entry} : ∀ (n : Nat) (items r : List Item), fillItems es n items = some r →
    r.length = items.length ∧ n ≤ items.length ∧
    (∀ (j : Nat), j < n → ∃ u e, items[j]? = some (.str u) ∧ e ∈ es ∧ lower e.uu = lower u ∧ r[j]? = some (.data e.data)) ∧
    ∀ j, n ≤ j → r[j]? = items[j]?
  | 0, items, r, h => by
    rw [fillItems] at h
    cases h
    exact ⟨rfl, Nat.zero_le _, by intro j hj; omega, fun _ _ => rfl⟩
  | n + 1, [], r, h => by cases h
  | n + 1, .data _ :: _, r, h => by cases h
  | n + 1, .str u :: items, r, h => by
    rw [fillItems] at h
    cases hl : lookupUuid es u with
    | none => rw [hl] at h; cases h
    | some e =>
      rw [hl] at h
      simp only at h
      cases hr : fillItems es n items with
      | none => rw [hr] at h; cases h
      | some r' =>
        rw [hr] at h
        cases h
        obtain ⟨h1, h2, h3, h4⟩ := fillItems_spec n items r' hr
        obtain ⟨m1, m2⟩ := lookupUuid_mem hl
        refine ⟨by simp [h1], by simpa using h2, ?_, ?_⟩
        · intro j hj
          cases j with
          | zero => exact ⟨u, e, rfl, m1, m2, rfl⟩
          | succ j => simpa using h3 j (by omega)
        · intro j hj
          cases j with
          | zero => omega
          | succ j => simpa using h4 j (by omega)

/-- **C27**: otherwise, when nested objects of the type were delivered, every recorded object is replaced, at its place, by the
data of the delivered object with that identifier (of that type); the rest of the list stays -/
theorem C27_recorded_order (T : Types) (es : List Entry) (u ty : Text) (n : Nat) (items : List Item) (r : Slot)
    (hu : T.nameOf u = some ty) (hne : ∃ e ∈ es, e.ty = ty) (h : fillSlot T es (.typed u n items) = some r) :
    ∃ items', r = .typed u n items' ∧ items'.length = items.length ∧
      (∀ j, j < n → ∃ i e, items[j]? = some (.str i) ∧ e ∈ es ∧ e.ty = ty ∧ lower e.uu = lower i ∧
        items'[j]? = some (.data e.data)) ∧
      (∀ j, n ≤ j → items'[j]? = items[j]?) := by
  have hne' : ofType ty es ≠ [] := by
    obtain ⟨e, he, ht⟩ := hne
    intro h0
    have : e ∈ ofType ty es := List.mem_filter.mpr ⟨he, by simpa using ht⟩
    rw [h0] at this; cases this
  rw [fillSlot, hu] at h
  simp only [if_neg hne'] at h
  cases hf : fillItems (ofType ty es) n items with
  | none => rw [hf] at h; cases h
  | some items' =>
    rw [hf] at h
    cases h
    obtain ⟨h1, _, h3, h4⟩ := fillItems_spec n items items' hf
    refine ⟨items', rfl, h1, ?_, h4⟩
    intro j hj
    obtain ⟨i, e, a1, a2, a3, a4⟩ := h3 j hj
    exact ⟨i, e, a1, (List.mem_filter.mp a2).1, by simpa using (List.mem_filter.mp a2).2, a3, a4⟩

theorem fillItems_missing {es : List Entry} {u : Text} (hm : ∀ e ∈ es, lower e.uu ≠ lower u) : ∀ (n j : Nat) (items : List Item),
    j < n → items[j]? = some (.str u) → fillItems es n items = none
  | 0, j, _, hj, _ => by omega
  | n + 1, j, [], _, h => by simp at h
  | n + 1, j, .data _ :: _, _, _ => rfl
  | n + 1, 0, .str v :: items, _, h => by
    simp only [List.getElem?_cons_zero, Option.some.injEq, Item.str.injEq] at h
    subst h
    rw [fillItems]
    cases hl : lookupUuid es v with
    | none => rfl
    | some e => exact absurd (lookupUuid_mem hl).2 (hm e (lookupUuid_mem hl).1)
  | n + 1, j + 1, .str v :: items, hj, h => by
    rw [fillItems]
    cases hl : lookupUuid es v with
    | none => rfl
    | some e =>
      simp only
      rw [fillItems_missing hm n j items (by omega) (by simpa using h)]; rfl

/-- **C27**: a recorded object that was not delivered (while others of its type were) is an error -/
theorem C27_missing_reported (T : Types) (es : List Entry) (u ty i : Text) (n j : Nat) (items : List Item)
    (hu : T.nameOf u = some ty) (hne : ∃ e ∈ es, e.ty = ty) (hj : j < n) (hi : items[j]? = some (.str i))
    (hm : ∀ e ∈ es, e.ty = ty → lower e.uu ≠ lower i) : fillSlot T es (.typed u n items) = none := by
  have hne' : ofType ty es ≠ [] := by
    obtain ⟨e, he, ht⟩ := hne
    intro h0
    have : e ∈ ofType ty es := List.mem_filter.mpr ⟨he, by simpa using ht⟩
    rw [h0] at this; cases this
  rw [fillSlot, hu]
  simp only [if_neg hne']
  rw [fillItems_missing (u := i) ?_ n j items hj hi]
  · rfl
  · intro e he; exact hm e (List.mem_filter.mp he).1 (by simpa using (List.mem_filter.mp he).2)

/-- **C27**: the lists do not depend on the order in which the nested objects were delivered -/
theorem C27_delivery_order_irrelevant (T : Types) (es es' : List Entry) (h : es.Perm es') (slots : List Slot)
    (hn : (es.map (fun e => (e.ty, e.nm))).Nodup) (hi : (es.map (fun e => (e.ty, lower e.uu))).Nodup) :
    fillSlots T es slots = fillSlots T es' slots :=
  fillSlots_perm h ⟨ofType_nodup Entry.nm hn, ofType_nodup (fun e => lower e.uu) hi⟩ slots

theorem orderFree_fill (T : Types) (slots : Text → Text → Text → List Slot) (g : Text → Text → Text → Option (List Slot) → Text) :
    ∀ f : Forest, DistinctNames f → DistinctIds f →
      OrderFree (fun ty nm uu es => g ty nm uu (fillSlots T es (slots ty nm uu))) f
  | .nil, _, _ => trivial
  | .cons ty nm uu p kids rest, h1, h2 => by
    refine ⟨?_, orderFree_fill T slots g kids h1.2.1 h2.2.1, orderFree_fill T slots g rest h1.2.2 h2.2.2⟩
    intro es hes
    have hc := entries_clear (enc := fun ty nm uu es => g ty nm uu (fillSlots T es (slots ty nm uu))) h1.2.1 h2.2.1
    simp only
    rw [fillSlots_perm hes.symm hc]

/-- **C26/C27**: whatever the object data are computed from the filled header lists, the order condition of C26 holds for every
tree with distinct names and identifiers: so the assembled product is the same for every schedule -/
theorem C27_product_schedule_independent (T : Types) (slots : Text → Text → Text → List Slot)
    (g : Text → Text → Text → Option (List Slot) → Text) (root : Id) (f : Forest) (hd : DistinctNames f) (hn : NoEmptyParents f)
    (hi : DistinctIds f) :
    let enc := fun ty nm uu es => g ty nm uu (fillSlots T es (slots ty nm uu))
    Inevitably enc (fun o => ∃ s, o = some s ∧ ¬ s.running ∧ (s.log.map (·.1)).Perm (objects root f) ∧
      s.index.Perm ((entries enc f).map (fun e => (root, e))) ∧
      ∀ rootSlots, fillSlots T (s.index.map (·.2)) rootSlots = fillSlots T (entries enc f) rootSlots)
      (some (initState root f)) := by
  intro enc
  refine (C26_each_once_children_first enc root f hd hn (orderFree_fill T slots g f hd hi)).mono ?_
  rintro _ ⟨s, rfl, h1, h2, _, _, h5⟩
  refine ⟨s, rfl, h1, h2, h5, ?_⟩
  intro rootSlots
  have hp : (entries enc f).Perm (s.index.map (·.2)) := by
    have := (h5.map (fun p : Id × Entry => p.2)).symm
    simpa [List.map_map, Function.comp_def] using this
  exact (fillSlots_perm hp (entries_clear hd hi) rootSlots).symm

/-- C27, limit: an object that was delivered but is not recorded in the header is dropped without a message -/
theorem C27_unrecorded_dropped : ∃ (T : Types) (es : List Entry) (s r : Slot) (e : Entry), e ∈ es ∧ fillSlot T es s = some r ∧
    ∀ u n items, r = .typed u n items → ∀ it ∈ items, it ≠ .data e.data :=
  ⟨⟨fun _ => some ['F'], fun _ => none⟩, [⟨['F'], ['1'], ['a'], ['x']⟩, ⟨['F'], ['2'], ['b'], ['y']⟩], .typed ['u'] 1 [.str ['1']],
    .typed ['u'] 1 [.data ['x']], ⟨['F'], ['2'], ['b'], ['y']⟩, by simp, by decide, by
      intro u n items h; cases h; simp⟩

/-- C27, limit: when no object of the type was delivered, the recorded identifiers stay in the list unfilled, without a message -/
theorem C27_all_missing_unreported (T : Types) (es : List Entry) (u ty : Text) (n : Nat) (items : List Item)
    (hu : T.nameOf u = some ty) (hne : ∀ e ∈ es, e.ty ≠ ty) : fillSlot T es (.typed u n items) = some (.typed u n items) := by
  have h0 : ofType ty es = [] := by
    rw [ofType, List.filter_eq_nil_iff]; intro e he; simpa using hne e he
  rw [fillSlot, hu]
  simp only [if_pos h0]

/-- sample types and entries: the objects arrive in the opposite order -/
def sampleTypes : Types := ⟨fun u => if u = ['u'] then some ['F'] else none, fun n => if n = ['F'] then some ['u'] else none⟩
def sampleEntries : List Entry := [⟨['F'], ['2'], ['b'], ['y']⟩, ⟨['F'], ['a'], ['a'], ['x']⟩]
example : fillSlot sampleTypes sampleEntries (.typed ['u'] 2 [.str ['A'], .str ['2']]) = some (.typed ['u'] 2 [.data ['x'], .data ['y']]) := by
  decide
example : fillSlot sampleTypes sampleEntries (.auto ['F']) = some (.typed ['u'] 2 [.data ['x'], .data ['y']]) := by decide
example : (sampleEntries.map (fun e => (e.ty, e.nm))).Nodup ∧ (sampleEntries.map (fun e => (e.ty, lower e.uu))).Nodup := by decide
example : DistinctIds sampleForest := by
  simp [sampleForest, DistinctIds, DistinctIds.idPairs]; decide
example : fillSlot sampleTypes sampleEntries (.typed ['u'] 2 [.str ['A'], .str ['3']]) = none := by decide

/-! ### C48 -/

/-- **C48**: when every object of the container can be decoded, the decoding ends after finitely many rounds with every object
decoded exactly once, whatever orders the pool delivers -/
theorem C48_every_object_decoded_once (bad : Task → Bool) (root : Id) (f : Forest) (h : ∀ t ∈ everything root f, bad t = false) :
    DInevitably bad (fun s => ∃ log, s = .run [] log ∧ log.Perm (everything root f)) (.run (tasksOf root f) []) := by
  have conv : ∀ {Q Q' : DState → Prop} {s}, (∀ s, Q s → Q' s) → DInevitably bad Q s → DInevitably bad Q' s := by
    intro Q Q' s hq h
    induction h with
    | here h => exact .here (hq _ h)
    | step he _ ih => exact .step he ih
  refine conv ?_ (decode_level bad f.depth (tasksOf root f) [] (fun t ht => by have := tasksOf_depth ht; omega))
  rintro s ⟨h1, _⟩
  obtain ⟨l, hl, hp⟩ := h1 (by
    intro t ht
    refine ⟨h t ((everything_eq root f).mem_iff.mpr (List.mem_append_left _ ht)), ?_⟩
    intro c hc
    exact h c ((everything_eq root f).mem_iff.mpr (List.mem_append_right _ (List.mem_flatMap.mpr ⟨t, ht, hc⟩))))
  exact ⟨l, by simpa using hl, hp.trans (everything_eq root f).symm⟩

/-- **C48**: when one object cannot be decoded, the decoding fails, whatever orders the pool delivers -/
theorem C48_failure_reported (bad : Task → Bool) (root : Id) (f : Forest) (h : ∃ t ∈ everything root f, bad t = true) :
    DInevitably bad (fun s => ∃ m, s = .failed m) (.run (tasksOf root f) []) := by
  have conv : ∀ {Q Q' : DState → Prop} {s}, (∀ s, Q s → Q' s) → DInevitably bad Q s → DInevitably bad Q' s := by
    intro Q Q' s hq h
    induction h with
    | here h => exact .here (hq _ h)
    | step he _ ih => exact .step he ih
  refine conv ?_ (decode_level bad f.depth (tasksOf root f) [] (fun t ht => by have := tasksOf_depth ht; omega))
  rintro s ⟨_, h2⟩
  obtain ⟨t, ht, hb⟩ := h
  rw [(everything_eq root f).mem_iff, List.mem_append, List.mem_flatMap] at ht
  rcases ht with ht | ⟨k, hk, ht⟩
  · exact h2 ⟨t, ht, .inl hb⟩
  · exact h2 ⟨k, hk, .inr ⟨t, ht, hb⟩⟩

example : (everything [] sampleForest).length = 5 := by decide
example : ∃ t ∈ everything [] sampleForest, (fun t : Task => decide (t.nm = ['r'])) t = true := by
  refine ⟨⟨[['C'], ['A'], ['T'], ['t']], ['R'], ['r'], ['4'], true, .nil⟩, ?_, by decide⟩
  simp [everything, sampleForest]

end V8.Encode
