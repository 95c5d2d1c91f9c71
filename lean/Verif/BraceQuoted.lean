import Verif.BraceLemmas
namespace V8.Brace

/-- doubling of quotes -/
def esc (s : Text) : Text := s.flatMap (fun c => if c = '"' then ['"', '"'] else [c])

theorem quoted_eq (s : Text) : quoted s = '"' :: esc s ++ ['"'] := rfl

theorem esc_cons (c : Char) (s : Text) : esc (c :: s) = (if c = '"' then ['"', '"'] else [c]) ++ esc s := by
  simp [esc]

theorem esc_nil : esc [] = [] := rfl

theorem nl_mem_esc (s : Text) (h : '\n' ∉ s) : '\n' ∉ esc s := by
  intro hm
  simp only [esc, List.mem_flatMap] at hm
  obtain ⟨c, hc, hm⟩ := hm
  split at hm
  · simp at hm
  · simp at hm; subst hm; exact h hc

theorem nl_mem_esc' (s : Text) (c : Char) (hcc : c ≠ '"') (h : c ∉ s) : c ∉ esc s := by
  intro hm
  simp only [esc, List.mem_flatMap] at hm
  obtain ⟨d, hd, hm⟩ := hm
  split at hm
  · simp at hm; exact hcc hm
  · simp at hm; subst hm; exact h hd

/-- new lines inside a string literal -/
theorem run_begin_nl (s : PS) (p) (t : Text) (hm : s.mode = .beginStr) :
    Run s p ('\n' :: t) = Run (s.add ['\n']) none t := by
  unfold Run
  rw [lines_nl]
  have e : decodeObject s p ['\n'] = .ok (s.add ['\n']) := by
    simp [decodeObject, hm]
  simp only [e]
  cases hl : lines t with
  | nil => rfl
  | cons l ls =>
    have h2 : decodeLine (s.add ['\n']) l = decodeObject (s.add ['\n']) none l := by
      simp [decodeLine, PS.add, hm]
    simp only [decodeLines, h2]
    cases decodeObject (s.add ['\n']) none l <;> rfl

theorem run_begin_char (s : PS) (p) (c : Char) (t : Text) (hm : s.mode = .beginStr) (h : c ≠ '"') :
    ∃ p', Run s p (c :: t) = Run (s.add [c]) p' t := by
  by_cases hn : c = '\n'
  · subst hn; exact ⟨none, run_begin_nl s p t hm⟩
  · refine ⟨some c, run_cons' _ _ _ _ _ hn ?_⟩
    intro l
    simp only [decodeObject, hm, if_neg h]

theorem run_begin_quote (s : PS) (p) (t : Text) (hm : s.mode = .beginStr) :
    Run s p ('"' :: t) = Run ({ s with mode := .endStr }.add ['"']) (some '"') t := by
  apply run_cons' _ _ _ _ _ (by decide)
  intro l
  simp only [decodeObject, hm, if_true]

theorem run_end_quote (s : PS) (p) (t : Text) (hm : s.mode = .endStr) :
    Run s p ('"' :: t) = Run ({ s with mode := .beginStr }.add ['"']) (some '"') t := by
  apply run_cons' _ _ _ _ _ (by decide)
  intro l
  simp only [decodeObject, hm, if_true]

/-- from inside a literal to just after its closing quote -/
theorem run_begin (s0 : Text) (done st v pb p t) :
    ∃ p', Run (PS.mk .beginStr done st (some v) pb) p (esc s0 ++ '"' :: t) =
      Run (PS.mk .endStr done st (some (v ++ (esc s0 ++ ['"']))) false) p' t := by
  induction s0 generalizing v pb p with
  | nil =>
    refine ⟨some '"', ?_⟩
    rw [esc_nil, List.nil_append, run_begin_quote _ _ _ rfl]
    simp [PS.add]
  | cons c s0 ih =>
    rw [esc_cons]
    by_cases hc : c = '"'
    · subst hc
      rw [if_pos rfl]
      simp only [List.cons_append, List.nil_append]
      rw [run_begin_quote _ _ _ rfl, run_end_quote _ _ _ rfl]
      simp only [PS.add, Option.getD_some]
      obtain ⟨p', hp⟩ := ih (v ++ ['"'] ++ ['"']) (decide (['"'] = ['}'])) (some '"')
      refine ⟨p', hp.trans ?_⟩
      simp
    · rw [if_neg hc]
      simp only [List.cons_append, List.nil_append]
      obtain ⟨p1, h1⟩ := run_begin_char (PS.mk .beginStr done st (some v) pb) p c (esc s0 ++ '"' :: t) rfl hc
      rw [h1]
      simp only [PS.add, Option.getD_some]
      obtain ⟨p', hp⟩ := ih (v ++ [c]) (decide ([c] = ['}'])) p1
      refine ⟨p', hp.trans ?_⟩
      simp

/-! ### MULTI mode -/

theorem countQQ_le : ∀ l : Text, countQQ l * 2 ≤ countQ l := by
  intro l
  fun_induction countQQ l with
  | case1 t ih =>
    have e : countQ ('"' :: '"' :: t) = countQ t + 2 := by simp [countQ]
    rw [e]; omega
  | case2 c t _ ih =>
    simp only [countQ, List.count_cons] at *; split <;> omega
  | case3 => simp [countQ]

theorem countQQ_ne (c : Char) (t : Text) (h : c ≠ '"') : countQQ (c :: t) = countQQ t := by
  rw [countQQ]
  intro t' h1
  exact (h h1).elim

/-- a piece of a literal has only doubled quotes -/
theorem count_esc (a : Text) (l : Text) :
    countQQ (esc a ++ l) * 2 + countQ l = countQ (esc a ++ l) + countQQ l * 2 := by
  induction a with
  | nil => rw [esc_nil, List.nil_append]; omega
  | cons c a ih =>
    rw [esc_cons]
    by_cases hc : c = '"'
    · subst hc
      rw [if_pos rfl]
      simp only [List.cons_append, List.nil_append]
      have e : countQ ('"' :: '"' :: (esc a ++ l)) = countQ (esc a ++ l) + 2 := by simp [countQ]
      rw [countQQ, e]; omega
    · rw [if_neg hc]
      simp only [List.cons_append, List.nil_append]
      rw [countQQ_ne _ _ hc]
      have e : countQ (c :: (esc a ++ l)) = countQ (esc a ++ l) := by
        unfold countQ; rw [List.count_cons_of_ne]; exact hc
      rw [e]; exact ih

/-- the closing quote makes the count odd -/
theorem count_close (a : Text) (l : Text) (hl : l.head? ≠ some '"') :
    countQQ (esc a ++ '"' :: l) * 2 < countQ (esc a ++ '"' :: l) := by
  induction a with
  | nil =>
    rw [esc_nil, List.nil_append]
    have e : countQ ('"' :: l) = countQ l + 1 := by simp [countQ]
    have e2 : countQQ ('"' :: l) = countQQ l := by
      rw [countQQ]
      rintro t' _ rfl
      simp at hl
    have := countQQ_le l
    omega
  | cons c a ih =>
    rw [esc_cons]
    by_cases hc : c = '"'
    · subst hc
      rw [if_pos rfl]
      simp only [List.cons_append, List.nil_append]
      have e : countQ ('"' :: '"' :: (esc a ++ '"' :: l)) = countQ (esc a ++ '"' :: l) + 2 := by simp [countQ]
      rw [countQQ, e]; omega
    · rw [if_neg hc]
      simp only [List.cons_append, List.nil_append]
      rw [countQQ_ne _ _ hc]
      have e : countQ (c :: (esc a ++ '"' :: l)) = countQ (esc a ++ '"' :: l) := by
        unfold countQ; rw [List.count_cons_of_ne]; exact hc
      rw [e]; exact ih

theorem first_line (s0 : Text) : '\n' ∉ s0 ∨ ∃ a b, s0 = a ++ '\n' :: b ∧ '\n' ∉ a := by
  induction s0 with
  | nil => exact .inl (by simp)
  | cons c s ih =>
    by_cases hc : c = '\n'
    · exact .inr ⟨[], s, by rw [hc]; rfl, by simp⟩
    · rcases ih with h | ⟨a, b, h, ha⟩
      · exact .inl (by simp [h, Ne.symm hc])
      · exact .inr ⟨c :: a, b, by rw [h]; rfl, by simp [ha, Ne.symm hc]⟩

theorem esc_append (a b : Text) : esc (a ++ b) = esc a ++ esc b := by simp [esc]

/-- MULTI mode reads to just after the closing quote -/
theorem txt_multi (n : Nat) (s0 : Text) (hn : s0.length ≤ n) (done st v pb c k) (hc : c ≠ '"' ∧ c ≠ '\n') :
    ∃ p', Txt (PS.mk .multi done st (some v) pb) (esc s0 ++ '"' :: c :: k) =
      Run (PS.mk .endStr done st (some (v ++ (esc s0 ++ ['"']))) false) p' (c :: k) := by
  induction n generalizing s0 v with
  | zero =>
    have : s0 = [] := List.eq_nil_of_length_eq_zero (by omega)
    subst this
    obtain ⟨l, ls, hl⟩ := lines_nonempty (c :: k) (by simp)
    have hhead : l.head? ≠ some '"' := by
      rw [lines_cons _ _ hc.2] at hl
      split at hl <;> (injection hl with h1; subst h1; simpa using hc.1)
    have hlines := lines_prefix (esc [] ++ ['"']) l ls (c :: k) (by simp [esc_nil]) hl
    obtain ⟨p', hp⟩ := run_begin [] done st v pb none (c :: k)
    refine ⟨p', ?_⟩
    rw [← hp]
    have e : esc [] ++ '"' :: c :: k = (esc [] ++ ['"']) ++ (c :: k) := by simp
    rw [e]
    unfold Run
    rw [txt_lines _ _ _ _ hlines, hlines]
    have hcnt := count_close [] l hhead
    have : countQQ (esc [] ++ ['"'] ++ l) * 2 ≠ countQ (esc [] ++ ['"'] ++ l) := by
      rw [List.append_assoc]; exact Nat.ne_of_lt hcnt
    simp only [decodeLine, if_pos this]
  | succ n ih =>
    rcases first_line s0 with h | ⟨a, b, rfl, ha⟩
    · obtain ⟨l, ls, hl⟩ := lines_nonempty (c :: k) (by simp)
      have hhead : l.head? ≠ some '"' := by
        rw [lines_cons _ _ hc.2] at hl
        split at hl <;> (injection hl with h1; subst h1; simpa using hc.1)
      have hlines := lines_prefix (esc s0 ++ ['"']) l ls (c :: k) (by
        simp only [List.mem_append, not_or]; exact ⟨nl_mem_esc s0 h, by simp⟩) hl
      obtain ⟨p', hp⟩ := run_begin s0 done st v pb none (c :: k)
      refine ⟨p', ?_⟩
      rw [← hp]
      have e : esc s0 ++ '"' :: c :: k = (esc s0 ++ ['"']) ++ (c :: k) := by simp
      rw [e]
      unfold Run
      rw [txt_lines _ _ _ _ hlines, hlines]
      have hcnt := count_close s0 l hhead
      have : countQQ (esc s0 ++ ['"'] ++ l) * 2 ≠ countQ (esc s0 ++ ['"'] ++ l) := by
        rw [List.append_assoc]; exact Nat.ne_of_lt hcnt
      simp only [decodeLine, if_pos this]
    · have e : esc (a ++ '\n' :: b) ++ '"' :: c :: k = esc a ++ '\n' :: (esc b ++ '"' :: c :: k) := by
        rw [esc_append, esc_cons, if_neg (by decide)]; simp
      obtain ⟨p', hp⟩ := ih b (by simp at hn; omega) (v ++ (esc a ++ ['\n']))
      refine ⟨p', ?_⟩
      rw [e]
      have hl := lines_append (esc a) (esc b ++ '"' :: c :: k) (nl_mem_esc a ha)
      rw [txt_lines _ _ _ _ hl]
      have hcnt := count_esc a ['\n']
      have h1 : countQ ['\n'] = 0 := by decide
      have h2 : countQQ ['\n'] = 0 := by decide
      have : ¬ countQQ (esc a ++ ['\n']) * 2 ≠ countQ (esc a ++ ['\n']) := by
        rw [h1, h2] at hcnt; omega
      simp only [decodeLine, if_neg this]
      have e2 : v ++ (esc (a ++ '\n' :: b) ++ ['"']) = v ++ (esc a ++ ['\n']) ++ (esc b ++ ['"']) := by
        rw [esc_append, esc_cons, if_neg (by decide)]; simp
      rw [e2]
      exact hp

/-- a whole string literal, followed by `,` or `}` -/
theorem run_quoted (s0 : Text) (done st cur pb p c k) (hc : c ≠ '"' ∧ c ≠ '\n') :
    ∃ p', Run (PS.mk .param done st cur pb) p (quoted s0 ++ c :: k) =
      Run (PS.mk .endStr done st (some (cur.getD [] ++ quoted s0)) false) p' (c :: k) := by
  rw [quoted_eq]
  simp only [List.cons_append, List.append_assoc, List.nil_append]
  by_cases hm : p = some ',' ∧ ∃ s1, s0 = '\n' :: s1
  · obtain ⟨rfl, s1, rfl⟩ := hm
    obtain ⟨p', hp⟩ := txt_multi s1.length s1 (Nat.le_refl _) done st (cur.getD [] ++ ['"', '\n']) false c k hc
    refine ⟨p', ?_⟩
    rw [esc_cons, if_neg (by decide)]
    simp only [List.cons_append, List.nil_append]
    have hl : lines ('"' :: '\n' :: (esc s1 ++ '"' :: c :: k)) = ['"', '\n'] :: lines (esc s1 ++ '"' :: c :: k) :=
      lines_append ['"'] _ (by decide)
    unfold Run
    rw [hl]
    have e : decodeObject (PS.mk .param done st cur pb) (some ',') ['"', '\n'] =
        .ok (PS.mk .multi done st (some (cur.getD [] ++ ['"', '\n'])) false) := by
      simp [decodeObject, PS.add]
    simp only [e]
    have := hp
    unfold Txt Run at this
    rw [this]
    simp
  · obtain ⟨p', hp⟩ := run_begin s0 done st (cur.getD [] ++ ['"']) false (some '"') (c :: k)
    refine ⟨p', ?_⟩
    have e : Run (PS.mk .param done st cur pb) p ('"' :: (esc s0 ++ '"' :: c :: k)) =
        Run (PS.mk .beginStr done st (some (cur.getD [] ++ ['"'])) false) (some '"') (esc s0 ++ '"' :: c :: k) := by
      apply run_cons _ _ _ _ _ (by decide)
      intro l hl
      have : ¬ (p = some ',' ∧ l = ['\n']) := by
        rintro ⟨h1, h2⟩
        obtain ⟨t', ht'⟩ := hl h2
        apply hm
        refine ⟨h1, ?_⟩
        cases s0 with
        | nil => rw [esc_nil] at ht'; simp at ht'
        | cons d s1 =>
          rw [esc_cons] at ht'
          split at ht'
          · simp at ht'
          · simp at ht'; exact ⟨s1, by rw [ht'.1]⟩
      simp [decodeObject, this, PS.add]
    rw [e, hp]
    simp

end V8.Brace
