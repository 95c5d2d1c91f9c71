import Verif.Props.PipeExtract
import Verif.Props.TreeTable
/-
C68 for the classes of the tool: no file but the elements of a form has the name of such a file.
-/
namespace V8.Pipe
open V8.Str V8.Brace V8.Enc V8.JsonText V8.Object V8.Header
open V8.Tree hiding Dir
open V8.Store hiding nodeOf
open V8.FormObj (objWord)

theorem class_cases (ty : Text) (c : Class) (h : classOf ty = some c) : (∃ k ∈ kinds, c = .file k) ∨ (∃ k ∈ innerKinds, c = .inner k) ∨ (∃ t, c = .leaf t) ∨
    c = accounting ∨ (∃ f ∈ V8.FormObj.forms, c = .form f) := by
  unfold classOf at h
  cases hf : kinds.find? (fun k => decide (k.name = ty)) with
  | some k' =>
    rw [hf] at h
    exact .inl ⟨k', List.mem_of_find?_eq_some hf, (Option.some.inj h).symm⟩
  | none =>
    rw [hf] at h
    simp only at h
    cases hg : innerKinds.find? (fun k => decide (k.name = ty)) with
    | some k' =>
      rw [hg] at h
      exact .inr (.inl ⟨k', List.mem_of_find?_eq_some hg, (Option.some.inj h).symm⟩)
    | none =>
      rw [hg] at h
      simp only at h
      cases hl : leaves.find? (fun t => decide (t.name = ty)) with
      | some t =>
        rw [hl] at h
        exact .inr (.inr (.inl ⟨t, (Option.some.inj h).symm⟩))
      | none =>
        rw [hl] at h
        simp only at h
        by_cases hacc : ty = "AccountingRegister".toList
        · rw [if_pos hacc] at h
          exact .inr (.inr (.inr (.inl (Option.some.inj h).symm)))
        · rw [if_neg hacc] at h
          rw [Option.map_eq_some_iff] at h
          obtain ⟨f, hf, rfl⟩ := h
          exact .inr (.inr (.inr (.inr ⟨f, List.mem_of_find?_eq_some hf, rfl⟩)))

/-- the classes of the tool meet the condition of C68 -/
theorem C68_names : PlainNames classOf := by
  have h1 : ∀ k ∈ kinds, ∀ n ∈ sources k, V8.Org.isElem n = false := by decide +kernel
  have h2 : ∀ k ∈ innerKinds, ∀ n ∈ sources k, V8.Org.isElem n = false := by decide +kernel
  have h3 : ∀ c ∈ [[16, 1], [15, 1]], ∀ k : Kind, k = { (kind "AccountingRegister" [16, 1] true [("obj", "6"), ("mgr", "7")] (some "5") [] none) with
      cls := { (kind "AccountingRegister" [16, 1] true [("obj", "6"), ("mgr", "7")] (some "5") [] none).cls with rest := c } } →
      ∀ n ∈ sources k, V8.Org.isElem n = false := by
    intro c hc k hk
    subst hk
    revert c
    decide +kernel
  have h4 : ∀ f ∈ V8.FormObj.forms, ∀ n ∈ [idName f.name, objName f.name, bslName f.name objWord, binName f.name objWord], V8.Org.isElem n = false := by decide +kernel
  refine ⟨?_, ?_, ?_⟩
  · intro ty c root k hc hk
    rcases class_cases ty c hc with ⟨k', hm, rfl⟩ | ⟨k', _, rfl⟩ | ⟨t, rfl⟩ | rfl | ⟨f, _, rfl⟩
    · cases hk
      exact h1 _ hm
    · cases hk
    · cases hk
    · have hk' : ∃ c ∈ [[16, 1], [15, 1]], k = { (kind "AccountingRegister" [16, 1] true [("obj", "6"), ("mgr", "7")] (some "5") [] none) with
          cls := { (kind "AccountingRegister" [16, 1] true [("obj", "6"), ("mgr", "7")] (some "5") [] none).cls with rest := c } } := by
        rcases kindAt_some hk with h | ⟨n, k0, rest, h, h'⟩
        · cases h
        · cases h
          rcases h' with rfl | rfl
          · exact ⟨[16, 1], List.mem_cons_self, rfl⟩
          · exact ⟨[15, 1], List.mem_cons_of_mem _ List.mem_cons_self, rfl⟩
      obtain ⟨c, hc', hk'⟩ := hk'
      exact h3 c hc' k hk'
    · cases hk
  · intro ty k hc
    rcases class_cases ty _ hc with ⟨k', _, h⟩ | ⟨k', hm, h⟩ | ⟨t, h⟩ | h | ⟨f, _, h⟩
    · cases h
    · cases h
      exact h2 _ hm
    · cases h
    · cases h
    · cases h
  · intro ty f hc
    rcases class_cases ty _ hc with ⟨k', _, h⟩ | ⟨k', _, h⟩ | ⟨t, h⟩ | h | ⟨f', hm, h⟩
    · cases h
    · cases h
    · cases h
    · cases h
    · cases h
      exact h4 _ hm

end V8.Pipe
