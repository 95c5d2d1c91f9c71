import Verif.PathText
/- Lemmas about joined paths (helper lemmas for Props/Path). -/
namespace V8.Path
open V8.Str

theorem split_at (a b : Text) : split '/' (a ++ '/' :: b) = split '/' a ++ split '/' b := by
  induction a with
  | nil => simp [split]
  | cons c a ih =>
    rw [List.cons_append, split, split, ih]
    by_cases h : c = '/'
    · simp [h]
    · rw [if_neg h, if_neg h]
      cases hs : split '/' a with
      | nil => exact absurd hs (split_ne _ _)
      | cons x r => simp

theorem place_at (a b : Text) : place (a ++ '/' :: b) = (split '/' b).foldl step (place a) := by
  unfold place
  rw [split_at, List.foldl_append]

/-- where a joined path leads -/
theorem place_join (a b : Text) :
    place (join a b) = if b.head? = some '/' then place b else (split '/' b).foldl step (place a) := by
  unfold join
  by_cases h : b.head? = some '/'
  · rw [if_pos h, if_pos h]
  rw [if_neg h, if_neg h]
  by_cases h2 : a = [] ∨ a.getLast? = some '/'
  · rw [if_pos h2]
    rcases h2 with h2 | h2
    · subst h2; rfl
    · obtain ⟨c, rfl⟩ : ∃ c, a = c ++ ['/'] := by
        rw [List.getLast?_eq_some_iff] at h2; exact h2
      rw [List.append_assoc, List.singleton_append, place_at, place_at]
      simp [split, step]
  · rw [if_neg h2, place_at]

theorem follow_join (X : List Text) (b c : Text) (hc : c.head? ≠ some '/') :
    (split '/' (join b c)).foldl step X = (split '/' c).foldl step ((split '/' b).foldl step X) := by
  unfold join
  rw [if_neg hc]
  by_cases h2 : b = [] ∨ b.getLast? = some '/'
  · rw [if_pos h2]
    rcases h2 with h2 | h2
    · subst h2; rfl
    · obtain ⟨d, rfl⟩ : ∃ d, b = d ++ ['/'] := by
        rw [List.getLast?_eq_some_iff] at h2; exact h2
      rw [List.append_assoc, List.singleton_append, split_at, split_at, List.foldl_append, List.foldl_append]
      simp [split, step]
  · rw [if_neg h2, split_at, List.foldl_append]

theorem join_head (b c : Text) (hc : c.head? ≠ some '/') : (join b c).head? = some '/' ↔ b.head? = some '/' := by
  unfold join
  rw [if_neg hc]
  cases b with
  | nil => simp [hc]
  | cons d b => split <;> simp

/-- joining is associative as far as places are concerned -/
theorem place_assoc (a b c : Text) : place (join a (join b c)) = place (join (join a b) c) := by
  by_cases hc : c.head? = some '/'
  · have : join b c = c := by unfold join; rw [if_pos hc]
    rw [this, place_join, place_join, if_pos hc, if_pos hc]
  · rw [place_join a (join b c), place_join (join a b) c, if_neg hc, place_join a b]
    by_cases hb : b.head? = some '/'
    · rw [if_pos ((join_head b c hc).mpr hb), if_pos hb, place_join, if_neg hc]
    · rw [if_neg (fun h => hb ((join_head b c hc).mp h)), if_neg hb, follow_join _ _ _ hc]

theorem place_assocs (a b : Text) (l : List Text) : place (join a (joins b l)) = place (joins (join a b) l) := by
  induction l generalizing b with
  | nil => rfl
  | cons c l ih =>
    have h1 : ∀ (x y : Text), place x = place y → ∀ l : List Text, place (joins x l) = place (joins y l) := by
      intro x y h l
      induction l generalizing x y with
      | nil => exact h
      | cons c l ih => exact ih _ _ (by rw [place_join, place_join, h])
    exact (ih (join b c)).trans (h1 _ _ (place_assoc a b c) l)

theorem plain_head (n : Text) (h : Plain n) : n.head? ≠ some '/' := by
  intro hc
  cases n with
  | nil => cases hc
  | cons c n => simp only [List.head?_cons, Option.some.injEq] at hc; subst hc; exact h.1 (by simp)

theorem step_plain (at_ : List Text) (n : Text) (h : Plain n) : step at_ n = at_ ++ [n] := by
  unfold step
  rw [if_neg h.2.2.2, if_neg (by intro hc; rcases hc with hc | hc; exact h.2.2.1 hc; exact h.2.1 hc)]

theorem place_plain (a n : Text) (h : Plain n) : place (join a n) = place a ++ [n] := by
  rw [place_join, if_neg (plain_head n h), split_clean _ _ h.1]
  exact step_plain _ _ h

theorem plain_number (n : Nat) : Plain (Dec.showNat n) := by
  have hd := Dec.showNat_digits n
  have hne := Dec.showNat_ne n
  have hdot : Dec.isDigit '.' = false := by decide
  refine ⟨fun h => ?_, hne, fun h => ?_, fun h => ?_⟩
  · have := hd _ h; revert this; decide
  · have := hd '.' (by rw [h]; decide); rw [hdot] at this; cases this
  · have := hd '.' (by rw [h]; decide); rw [hdot] at this; cases this

theorem split_pathOf (p : List Text) (h : ∀ c ∈ p, '/' ∉ c) : split '/' (pathOf p) = [] :: p := by
  unfold pathOf
  induction p with
  | nil => rfl
  | cons c p ih =>
    rw [List.flatMap_cons, List.cons_append, split, if_pos rfl]
    cases p with
    | nil => rw [List.flatMap_nil, List.append_nil, split_clean _ _ (h c (by simp))]
    | cons d p =>
      have := ih (fun x hx => h x (by simp [hx]))
      rw [List.flatMap_cons, List.cons_append] at this ⊢
      rw [split, if_pos rfl] at this
      rw [split_append _ _ _ (h c (by simp))]
      simp only [List.cons.injEq, true_and] at this
      rw [this]

theorem foldl_plain (at_ p : List Text) (h : ∀ c ∈ p, Plain c) : p.foldl step at_ = at_ ++ p := by
  induction p generalizing at_ with
  | nil => simp
  | cons c p ih =>
    rw [List.foldl_cons, step_plain _ _ (h c (by simp)), ih _ (fun x hx => h x (by simp [hx]))]
    simp

theorem place_pathOf (p : List Text) (h : ∀ c ∈ p, Plain c) : place (pathOf p) = p := by
  unfold place
  rw [split_pathOf p (fun c hc => (h c hc).1), List.foldl_cons]
  have : step [] [] = [] := by decide
  rw [this, foldl_plain _ _ h, List.nil_append]

theorem pathOf_head (p : List Text) (h : p ≠ []) : (pathOf p).head? = some '/' := by
  cases p with
  | nil => exact absurd rfl h
  | cons c p => rfl

theorem resolve_eq (b : List Text) (l : List Text) : Code.resolve b l = l.foldl step b := rfl

/-- parts without a separator, one after the other -/
theorem place_joins (a : Text) (l : List Text) (h : ∀ c ∈ l, '/' ∉ c) : place (joins a l) = l.foldl step (place a) := by
  unfold joins
  induction l generalizing a with
  | nil => rfl
  | cons c l ih =>
    rw [List.foldl_cons, ih _ (fun x hx => h x (by simp [hx])), List.foldl_cons, place_join]
    have hc := h c (by simp)
    have hh : c.head? ≠ some '/' := by
      intro hx
      cases c with
      | nil => cases hx
      | cons d c => simp only [List.head?_cons, Option.some.injEq] at hx; subst hx; exact hc (by simp)
    rw [if_neg hh, split_clean _ _ hc]
    rfl

/-- a joined path is never just '..' -/
theorem joins_length (a : Text) (l : List Text) (hne : l ≠ []) (h : ∀ c ∈ l, '/' ∉ c ∧ c ≠ []) (ha : '/' ∉ a) (hane : a ≠ []) :
    '/' ∈ joins a l := by
  unfold joins
  have key : ∀ (l : List Text) (a : Text), (∀ c ∈ l, '/' ∉ c ∧ c ≠ []) → '/' ∈ a → '/' ∈ l.foldl join a := by
    intro l
    induction l with
    | nil => intro a _ h; exact h
    | cons c l ih =>
      intro a hc h
      rw [List.foldl_cons]
      apply ih _ (fun x hx => hc x (by simp [hx]))
      unfold join
      have hh : c.head? ≠ some '/' := by
        have hcc := (hc c (by simp)).1
        intro hx
        cases c with
        | nil => cases hx
        | cons d c => simp only [List.head?_cons, Option.some.injEq] at hx; subst hx; exact hcc (by simp)
      rw [if_neg hh]
      split <;> simp [h]
  cases l with
  | nil => exact absurd rfl hne
  | cons c l =>
    rw [List.foldl_cons]
    apply key l _ (fun x hx => h x (by simp [hx]))
    unfold join
    have hcc := (h c (by simp)).1
    have hh : c.head? ≠ some '/' := by
      intro hx
      cases c with
      | nil => cases hx
      | cons d c => simp only [List.head?_cons, Option.some.injEq] at hx; subst hx; exact hcc (by simp)
    rw [if_neg hh, if_neg]
    · simp
    · intro hx
      rcases hx with hx | hx
      · exact hane hx
      · rw [List.getLast?_eq_some_iff] at hx
        obtain ⟨x, rfl⟩ := hx
        exact ha (by simp)

end V8.Path
