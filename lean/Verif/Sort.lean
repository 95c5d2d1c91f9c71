import Verif.Text
import Mathlib.Data.List.Perm.Basic
/-
Python's `sorted` on strings (and on tuples with a string key): a stable sort by the code points of the characters.
Modelled as insertion sort, which gives the same list as every stable sort.
-/
namespace V8

/-- string comparison `a <= b` of Python: code point by code point -/
def textLe : Text → Text → Bool
  | [], _ => true
  | _ :: _, [] => false
  | a :: s, b :: t => if a = b then textLe s t else decide (a.toNat < b.toNat)

/-- insertion before the first element that is not smaller -/
def insertBy {α : Type} (key : α → Text) (x : α) : List α → List α
  | [] => [x]
  | y :: r => if textLe (key x) (key y) then x :: y :: r else y :: insertBy key x r

/-- `sorted(l, key=key)` -/
def sortBy {α : Type} (key : α → Text) : List α → List α
  | [] => []
  | x :: r => insertBy key x (sortBy key r)

theorem char_ext {a b : Char} (h : a.toNat = b.toNat) : a = b := Char.toNat_inj.mp h

theorem textLe_refl : ∀ s, textLe s s = true
  | [] => rfl
  | a :: s => by rw [textLe, if_pos rfl, textLe_refl s]

theorem textLe_total : ∀ s t, textLe s t = false → textLe t s = true
  | [], _, h => by simp [textLe] at h
  | _ :: _, [], _ => rfl
  | a :: s, b :: t, h => by
    rw [textLe] at h ⊢
    by_cases hab : a = b
    · rw [if_pos hab] at h; rw [if_pos hab.symm]; exact textLe_total s t h
    · rw [if_neg hab] at h; rw [if_neg (Ne.symm hab)]
      simp only [decide_eq_false_iff_not, decide_eq_true_eq] at *
      have : a.toNat ≠ b.toNat := fun e => hab (char_ext e)
      omega

theorem textLe_antisymm : ∀ s t, textLe s t = true → textLe t s = true → s = t
  | [], [], _, _ => rfl
  | [], _ :: _, _, h => by simp [textLe] at h
  | _ :: _, [], h, _ => by simp [textLe] at h
  | a :: s, b :: t, h1, h2 => by
    rw [textLe] at h1 h2
    by_cases hab : a = b
    · rw [if_pos hab] at h1; rw [if_pos hab.symm] at h2; rw [hab, textLe_antisymm s t h1 h2]
    · rw [if_neg hab] at h1; rw [if_neg (Ne.symm hab)] at h2
      simp only [decide_eq_true_eq] at *
      omega

theorem textLe_trans : ∀ s t u, textLe s t = true → textLe t u = true → textLe s u = true
  | [], _, _, _, _ => by simp [textLe]
  | _ :: _, [], _, h, _ => by simp [textLe] at h
  | _ :: _, _ :: _, [], _, h => by simp [textLe] at h
  | a :: s, b :: t, c :: u, h1, h2 => by
    rw [textLe] at h1 h2 ⊢
    by_cases hab : a = b
    · subst hab
      rw [if_pos rfl] at h1
      by_cases hac : a = c
      · rw [if_pos hac] at h2; rw [if_pos hac]; exact textLe_trans s t u h1 h2
      · rw [if_neg hac] at h2; rw [if_neg hac]; exact h2
    · rw [if_neg hab] at h1
      simp only [decide_eq_true_eq] at h1
      by_cases hbc : b = c
      · subst hbc
        rw [if_neg hab]; simpa using h1
      · rw [if_neg hbc] at h2
        simp only [decide_eq_true_eq] at h2
        have : a ≠ c := fun e => by subst e; omega
        rw [if_neg this]
        simp only [decide_eq_true_eq]
        omega

theorem insertBy_perm {α : Type} (key : α → Text) (x : α) : ∀ l, (insertBy key x l).Perm (x :: l)
  | [] => .refl _
  | y :: r => by
    rw [insertBy]
    split
    · exact .refl _
    · exact ((insertBy_perm key x r).cons y).trans (.swap x y r)

theorem sortBy_perm {α : Type} (key : α → Text) : ∀ l, (sortBy key l).Perm l
  | [] => .refl _
  | x :: r => (insertBy_perm key x _).trans ((sortBy_perm key r).cons x)

theorem insertBy_sorted {α : Type} (key : α → Text) (x : α) : ∀ l,
    l.Pairwise (fun a b => textLe (key a) (key b) = true) →
    (insertBy key x l).Pairwise (fun a b => textLe (key a) (key b) = true)
  | [], _ => List.pairwise_singleton _ _
  | y :: r, h => by
    rw [insertBy]
    rw [List.pairwise_cons] at h
    split
    · rename_i hxy
      refine List.pairwise_cons.mpr ⟨?_, List.pairwise_cons.mpr h⟩
      intro z hz
      rcases List.mem_cons.mp hz with rfl | hz
      · exact hxy
      · exact textLe_trans _ _ _ hxy (h.1 z hz)
    · rename_i hxy
      refine List.pairwise_cons.mpr ⟨?_, insertBy_sorted key x r h.2⟩
      intro z hz
      rcases List.mem_cons.mp ((insertBy_perm key x r).subset hz) with rfl | hz
      · exact textLe_total _ _ (by simpa using hxy)
      · exact h.1 z hz

theorem sortBy_sorted {α : Type} (key : α → Text) : ∀ l, (sortBy key l).Pairwise (fun a b => textLe (key a) (key b) = true)
  | [] => .nil
  | x :: r => insertBy_sorted key x _ (sortBy_sorted key r)

/-- a list in key order without repeated keys is determined by its elements -/
theorem sorted_unique {α : Type} (key : α → Text) : ∀ (l l' : List α), l.Perm l' → (l.map key).Nodup →
    l.Pairwise (fun a b => textLe (key a) (key b) = true) → l'.Pairwise (fun a b => textLe (key a) (key b) = true) → l = l'
  | [], l', h, _, _, _ => h.nil_eq
  | a :: l, [], h, _, _, _ => absurd h.symm.nil_eq (by simp)
  | a :: l, b :: l', h, hn, h1, h2 => by
    have hn2 : ((b :: l').map key).Nodup := (h.map key).nodup_iff.mp hn
    rw [List.pairwise_cons] at h1 h2
    have hab : a = b := by
      have ha : a ∈ b :: l' := h.subset List.mem_cons_self
      have hb : b ∈ a :: l := h.symm.subset List.mem_cons_self
      rcases List.mem_cons.mp ha with e | ha
      · exact e
      · rcases List.mem_cons.mp hb with e | hb
        · exact e.symm
        · have k1 := h1.1 b hb
          have k2 := h2.1 a ha
          have e := textLe_antisymm _ _ k1 k2
          rw [List.map_cons, List.nodup_cons] at hn
          exact absurd (e ▸ List.mem_map_of_mem hb) hn.1
    subst hab
    rw [List.map_cons, List.nodup_cons] at hn
    rw [sorted_unique key l l' ((List.perm_cons a).mp h) hn.2 h1.2 h2.2]

/-- sorting does not depend on the order of the list when the keys are distinct -/
theorem sortBy_congr {α : Type} (key : α → Text) {l l' : List α} (h : l.Perm l') (hn : (l.map key).Nodup) :
    sortBy key l = sortBy key l' := by
  refine sorted_unique key _ _ ((sortBy_perm key l).trans (h.trans (sortBy_perm key l').symm)) ?_ (sortBy_sorted key l)
    (sortBy_sorted key l')
  exact ((sortBy_perm key l).map key).nodup_iff.mpr hn

end V8
