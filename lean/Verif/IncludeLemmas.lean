import Verif.Include
import Verif.EncodeLemmas
/-
Lemmas about the filling of header lists.
-/
namespace V8.Encode

/-- the identifiers of the nested objects of one parent and type are distinct (as the case-insensitive comparison sees them), at
every level -/
def DistinctIds : Forest → Prop
  | .nil => True
  | .cons ty _ uu _ kids rest =>
    (ty, lower uu) ∉ idPairs rest ∧ DistinctIds kids ∧ DistinctIds rest
where
  /-- type and identifier of the objects of one parent -/
  idPairs : Forest → List (Text × Text)
  | .nil => []
  | .cons ty _ uu _ _ rest => (ty, lower uu) :: idPairs rest

theorem nodup_map_inj {α β : Type} (g : α → β) {l : List α} (h : (l.map g).Nodup) {a b : α} (ha : a ∈ l) (hb : b ∈ l)
    (e : g a = g b) : a = b := by
  induction l with
  | nil => cases ha
  | cons t l ih =>
    rw [List.map_cons, List.nodup_cons] at h
    rcases List.mem_cons.mp ha with rfl | ha'
    · rcases List.mem_cons.mp hb with rfl | hb'
      · rfl
      · exact absurd (e ▸ List.mem_map_of_mem hb') h.1
    · rcases List.mem_cons.mp hb with rfl | hb'
      · exact absurd (e ▸ List.mem_map_of_mem ha') h.1
      · exact ih h.2 ha' hb'

theorem find?_perm {α : Type} (p : α → Bool) : ∀ {l l' : List α}, l.Perm l' →
    (∀ a ∈ l, ∀ b ∈ l, p a = true → p b = true → a = b) → l.find? p = l'.find? p := by
  intro l l' h hu
  cases h1 : l.find? p with
  | none =>
    symm
    rw [List.find?_eq_none] at h1 ⊢
    intro x hx; exact h1 x (h.symm.subset hx)
  | some a =>
    cases h2 : l'.find? p with
    | none =>
      rw [List.find?_eq_none] at h2
      have ha := List.mem_of_find?_eq_some h1
      exact absurd (List.find?_some h1) (h2 a (h.subset ha))
    | some b =>
      have := hu a (List.mem_of_find?_eq_some h1) b (h.symm.subset (List.mem_of_find?_eq_some h2)) (List.find?_some h1)
        (List.find?_some h2)
      rw [this]

theorem lookupUuid_perm {es es' : List Entry} (h : es.Perm es') (hn : (es.map (fun e => lower e.uu)).Nodup) (u : Text) :
    lookupUuid es u = lookupUuid es' u := by
  rw [lookupUuid, lookupUuid]
  refine find?_perm _ ((List.reverse_perm es).trans (h.trans (List.reverse_perm es').symm)) ?_
  intro a ha b hb h1 h2
  simp only [decide_eq_true_eq] at h1 h2
  rw [List.mem_reverse] at ha hb
  exact nodup_map_inj _ hn ha hb (h1.trans h2.symm)

theorem lookupUuid_mem {es : List Entry} {u : Text} {e : Entry} (h : lookupUuid es u = some e) :
    e ∈ es ∧ lower e.uu = lower u := by
  rw [lookupUuid] at h
  exact ⟨List.mem_reverse.mp (List.mem_of_find?_eq_some h), by simpa using List.find?_some h⟩

theorem lookupUuid_none {es : List Entry} {u : Text} (h : lookupUuid es u = none) : ∀ e ∈ es, lower e.uu ≠ lower u := by
  rw [lookupUuid, List.find?_eq_none] at h
  intro e he
  simpa using h e (List.mem_reverse.mpr he)

theorem fillItems_congr {es es' : List Entry} (h : ∀ u, lookupUuid es u = lookupUuid es' u) : ∀ (n : Nat) (items : List Item),
    fillItems es n items = fillItems es' n items
  | 0, _ => rfl
  | _ + 1, [] => rfl
  | _ + 1, .data _ :: _ => rfl
  | n + 1, .str u :: r => by rw [fillItems, fillItems, h u, fillItems_congr h n r]

theorem ofType_perm {es es' : List Entry} (h : es.Perm es') (ty : Text) : (ofType ty es).Perm (ofType ty es') := h.filter _

/-- entries without two of the same type and name, or of the same type and identifier -/
structure Clear (es : List Entry) : Prop where
  names : ∀ ty, ((ofType ty es).map Entry.nm).Nodup
  ids : ∀ ty, ((ofType ty es).map (fun e => lower e.uu)).Nodup

theorem fillSlot_perm {T : Types} {es es' : List Entry} (h : es.Perm es') (hc : Clear es) (s : Slot) :
    fillSlot T es s = fillSlot T es' s := by
  cases s with
  | auto ty =>
    rw [fillSlot, fillSlot, sortBy_congr Entry.nm (ofType_perm h ty) (hc.names ty)]
  | typed u n items =>
    rw [fillSlot, fillSlot]
    cases T.nameOf u with
    | none => rfl
    | some ty =>
      simp only
      have hp := ofType_perm h ty
      by_cases h0 : ofType ty es = []
      · have h0' : ofType ty es' = [] := by rw [h0] at hp; exact hp.nil_eq.symm
        rw [if_pos h0, if_pos h0']
      · have h0' : ofType ty es' ≠ [] := by intro e; rw [e] at hp; exact h0 hp.eq_nil
        rw [if_neg h0, if_neg h0', fillItems_congr (lookupUuid_perm hp (hc.ids ty))]

theorem fillSlots_perm {T : Types} {es es' : List Entry} (h : es.Perm es') (hc : Clear es) : ∀ ss : List Slot,
    fillSlots T es ss = fillSlots T es' ss
  | [] => rfl
  | s :: r => by rw [fillSlots, fillSlots, fillSlot_perm h hc s, fillSlots_perm h hc r]

theorem entries_names (enc) : ∀ f : Forest, ((entries enc f).map (fun e => (e.ty, e.nm))).Sublist (names f)
  | .nil => .slnil
  | .cons ty nm uu p kids rest => by
    have ih := entries_names enc rest
    cases p
    · exact List.Sublist.cons _ ih
    · exact List.Sublist.cons_cons _ ih

theorem entries_ids (enc) : ∀ f : Forest, ((entries enc f).map (fun e => (e.ty, lower e.uu))).Sublist (DistinctIds.idPairs f)
  | .nil => .slnil
  | .cons ty nm uu p kids rest => by
    have ih := entries_ids enc rest
    cases p
    · exact List.Sublist.cons _ ih
    · exact List.Sublist.cons_cons _ ih

theorem idPairs_nodup : ∀ {f : Forest}, DistinctIds f → (DistinctIds.idPairs f).Nodup
  | .nil, _ => List.nodup_nil
  | .cons .., h => List.nodup_cons.mpr ⟨h.1, idPairs_nodup h.2.2⟩

theorem ofType_nodup {α : Type} (g : Entry → α) {es : List Entry} (h : (es.map (fun e => (e.ty, g e))).Nodup) (ty : Text) :
    ((ofType ty es).map g).Nodup := by
  have h1 : es.Pairwise (fun a b => (a.ty, g a) ≠ (b.ty, g b)) := List.pairwise_map.mp h
  refine List.pairwise_map.mpr ?_
  refine (h1.sublist List.filter_sublist).imp_of_mem ?_
  intro a b ha hb hne e
  have h2 : a.ty = ty := by simpa using (List.mem_filter.mp ha).2
  have h3 : b.ty = ty := by simpa using (List.mem_filter.mp hb).2
  exact hne (Prod.ext (h2.trans h3.symm) e)

theorem entries_clear {enc} {f : Forest} (h1 : DistinctNames f) (h2 : DistinctIds f) : Clear (entries enc f) :=
  ⟨fun ty => ofType_nodup Entry.nm ((names_nodup h1).sublist (entries_names enc f)) ty,
   fun ty => ofType_nodup (fun e => lower e.uu) ((idPairs_nodup h2).sublist (entries_ids enc f)) ty⟩

theorem Clear.perm {es es' : List Entry} (h : es.Perm es') (hc : Clear es) : Clear es' :=
  ⟨fun ty => ((ofType_perm h ty).map _).nodup_iff.mp (hc.names ty), fun ty => ((ofType_perm h ty).map _).nodup_iff.mp (hc.ids ty)⟩

end V8.Encode
