import Verif.Props.Tree
/-
C61 for the classes and the types of the tool.
-/
namespace V8.Tree
open V8.Brace V8.Enc V8.JsonText V8.Header V8.Nested V8.Object V8.Store

/-! ## the table of the tool -/

/-- no class of the tool has a collision, and the commands are kept inside their parents -/
theorem C61_classes : ClassesOk classOf := by
  have h2 : ∀ k ∈ innerKinds, ((keys k).Nodup ∧
      (∀ q ∈ keys k, q ∉ ["name".toList, "name2".toList, "comment".toList, "header".toList, "obj_version".toList]) ∧ (sources k).Nodup ∧
      (k.help.toList ++ k.blobs.map (·.1) ++ k.codes.map (·.2) ++ k.info.toList).Nodup) ∧
      k.cls.includes = false ∧ k.help = none ∧ k.blobs = [] ∧ k.info = none ∧ k.cls.ids = [] ∧ k.cls.stamp = false := by decide +kernel
  have h3 : ∀ c ∈ [[16, 1], [15, 1]], ∀ k : Kind, k = { (kind "AccountingRegister" [16, 1] true [("obj", "6"), ("mgr", "7")] (some "5") [] none) with
      cls := { (kind "AccountingRegister" [16, 1] true [("obj", "6"), ("mgr", "7")] (some "5") [] none).cls with rest := c } } →
      ((keys k).Nodup ∧
      (∀ q ∈ keys k, q ∉ ["name".toList, "name2".toList, "comment".toList, "header".toList, "obj_version".toList]) ∧ (sources k).Nodup ∧
      (k.help.toList ++ k.blobs.map (·.1) ++ k.codes.map (·.2) ++ k.info.toList).Nodup) := by
    intro c hc k hk
    subst hk
    revert c
    decide +kernel
  have hall : ∀ ty c, classOf ty = some c → (∃ k ∈ kinds, c = .file k) ∨ (∃ k ∈ innerKinds, c = .inner k) ∨ (∃ t, c = .leaf t) ∨ c = accounting ∨
      (∃ f, c = .form f) := by
    intro ty c h
    unfold classOf at h
    cases hf : kinds.find? (fun k => decide (k.name = ty)) with
    | some k' =>
      rw [hf] at h
      exact .inl ⟨k', List.mem_of_find?_eq_some hf, (Option.some.inj h).symm⟩
    | none =>
      rw [hf] at h
      simp only at h
      cases hg : innerKinds.find? (fun k => decide (k.name = ty)) with
      | some k' =>
        rw [hg] at h
        exact .inr (.inl ⟨k', List.mem_of_find?_eq_some hg, (Option.some.inj h).symm⟩)
      | none =>
        rw [hg] at h
        simp only at h
        cases hl : leaves.find? (fun t => decide (t.name = ty)) with
        | some t =>
          rw [hl] at h
          exact .inr (.inr (.inl ⟨t, (Option.some.inj h).symm⟩))
        | none =>
          rw [hl] at h
          simp only at h
          by_cases hacc : ty = "AccountingRegister".toList
          · rw [if_pos hacc] at h
            exact .inr (.inr (.inr (.inl (Option.some.inj h).symm)))
          · rw [if_neg hacc] at h
            rw [Option.map_eq_some_iff] at h
            obtain ⟨f, _, rfl⟩ := h
            exact .inr (.inr (.inr (.inr ⟨f, rfl⟩)))
  have h4 : ∀ k ∈ kinds, k.name ∈ containers → k.cls.rest ≠ [] ∧ k.cls.rest.head? ≠ some 1 := by decide +kernel
  refine ⟨?_, ?_, ?_, ?_⟩
  · intro ty c root k hc hk
    rcases hall ty c hc with ⟨k', hm, rfl⟩ | ⟨k', _, rfl⟩ | ⟨t, rfl⟩ | rfl | ⟨f, rfl⟩
    · cases hk
      exact C60_classes_good _ hm
    · cases hk
    · cases hk
    · have hids : k.cls.ids = [] := by
        rcases kindAt_some hk with h | ⟨n, k0, rest, h, h'⟩
        · cases h
        · cases h
          rcases h' with rfl | rfl <;> rfl
      have hk' : ∃ c ∈ [[16, 1], [15, 1]], k = { (kind "AccountingRegister" [16, 1] true [("obj", "6"), ("mgr", "7")] (some "5") [] none) with
          cls := { (kind "AccountingRegister" [16, 1] true [("obj", "6"), ("mgr", "7")] (some "5") [] none).cls with rest := c } } := by
        rcases kindAt_some hk with h | ⟨n, k0, rest, h, h'⟩
        · cases h
        · cases h
          rcases h' with rfl | rfl
          · exact ⟨[16, 1], List.mem_cons_self, rfl⟩
          · exact ⟨[15, 1], List.mem_cons_of_mem _ List.mem_cons_self, rfl⟩
      obtain ⟨c, hc', hk'⟩ := hk'
      obtain ⟨a, b, e, f⟩ := h3 c hc' k hk'
      exact ⟨a, b, e, f, ids_none hids⟩
    · cases hk
  · intro ty n k rest hc
    rcases hall ty _ hc with ⟨k', _, h⟩ | ⟨k', _, h⟩ | ⟨t, h⟩ | h | ⟨f, h⟩
    · cases h
    · cases h
    · cases h
    · cases h
      exact ⟨rfl, by decide, by decide, by decide, by decide⟩
    · cases h
  · intro ty k hc
    rcases hall ty _ hc with ⟨k', _, h⟩ | ⟨k', hm, h⟩ | ⟨t, h⟩ | h | ⟨f, h⟩
    · cases h
    · cases h
      obtain ⟨⟨a, b, c, d⟩, e⟩ := h2 k hm
      exact ⟨⟨a, b, c, d, ids_none e.2.2.2.2.1⟩, e⟩
    · cases h
    · cases h
    · cases h
  · intro ty k hc hn
    rcases hall ty _ hc with ⟨k', hm, h⟩ | ⟨k', _, h⟩ | ⟨t, h⟩ | h | ⟨f, h⟩
    · cases h
      exact h4 _ hm hn
    · cases h
    · cases h
    · cases h
    · cases h

/-- every class of forms is the class of the type of its name, and a form of that type is an object with a file of its own -/
theorem C61_forms : ∀ f ∈ V8.FormObj.forms, classOf f.name = some (.form f) ∧ ∃ p ∈ metaTypes, p.2 = f.name := by
  have h : ∀ f ∈ V8.FormObj.forms, classOf f.name = some (.form f) ∧ f.name ∈ metaTypes.map (·.2) := by decide +kernel
  intro f hf
  obtain ⟨h1, h2⟩ := h f hf
  obtain ⟨p, hp, he⟩ := List.mem_map.mp h2
  exact ⟨h1, p, hp, he⟩

/-- the identifiers of the types are distinct, and so are the names: a type name written by auto_include (C57) leads back to its identifier -/
theorem C61_types_distinct : (metaTypes.map (·.1)).Nodup ∧ (metaTypes.map (·.2)).Nodup := by decide +kernel

theorem C61_type_names_lead_back (u ty : Text) (h : (envOf metaTypes classOf).nameOf u = some ty) : (envOf metaTypes classOf).uuidOf ty = some u :=
  uuidOf_nameOf C61_types_distinct.2 u ty h

/-- the types without a class: their objects cannot be taken apart if they have files of their own -/
theorem C61_types_without_class : ∀ p ∈ metaTypes, classOf p.2 = none ↔
    p.2 ∈ ["Configuration", "ExternalDataProcessor", "ExternalReport", "FormAttribute", "TabularSectionAttribute"].map String.toList := by
  have h : ∀ p ∈ metaTypes, (classOf p.2).isNone = decide (p.2 ∈ ["Configuration", "ExternalDataProcessor", "ExternalReport", "FormAttribute",
    "TabularSectionAttribute"].map String.toList) := by decide +kernel
  intro p hp
  rw [← Option.isNone_iff_eq_none, h p hp, decide_eq_true_eq]

end V8.Tree
