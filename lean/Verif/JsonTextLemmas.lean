import Verif.JsonText
import Verif.ModuleLemmas
namespace V8.JsonText
open V8.Dec V8.Brace V8.Enc

/-! ### strings -/

theorem push_some (c : Char) (a b : Text) : push c (some (a, b)) = some (c :: a, b) := rfl
theorem push_none (c : Char) : push c none = none := rfl

theorem scan_quote (r : Text) : scan ('"' :: r) = some ([], r) := by rw [scan.eq_def]; simp

theorem scan_plain (c : Char) (r : Text) (h1 : c ≠ '"') (h2 : c ≠ '\\') (h3 : ¬ c.toNat < 32) : scan (c :: r) = push c (scan r) := by
  rw [scan.eq_def]; simp only [if_neg h1, if_neg h2, if_neg h3]

theorem scan_back (e x : Char) (r : Text) (hu : e ≠ 'u') (hb : backslash e = some x) : scan ('\\' :: e :: r) = push x (scan r) := by
  rw [scan.eq_def]
  simp only [if_neg (show ('\\' : Char) ≠ '"' by decide), if_true, if_neg hu, hb]

theorem scan_u (a b c d : Char) (n : Nat) (r : Text) (h : hex4 a b c d = some n) (h1 : n < 0xD800) :
    scan ('\\' :: 'u' :: a :: b :: c :: d :: r) = push (Char.ofNat n) (scan r) := by
  rw [scan.eq_def]
  simp only [if_neg (show ('\\' : Char) ≠ '"' by decide), if_true, h]
  rw [if_neg (by omega), if_neg (by omega)]

theorem hex_small : ∀ n < 32, hex4 '0' '0' (hexDigit (n / 16)) (hexDigit (n % 16)) = some n := by decide

theorem toNat_inj {c d : Char} (h : c.toNat = d.toNat) : c = d := Char.toNat_inj.mp h

theorem ofNat_toNat (c : Char) : Char.ofNat c.toNat = c := by simp

theorem scan_escChar (c : Char) (r : Text) : scan (escChar c ++ r) = push c (scan r) := by
  unfold escChar
  by_cases h1 : c = '"'
  · subst h1; exact scan_back _ _ _ (by decide) (by decide)
  rw [if_neg h1]
  by_cases h2 : c = '\\'
  · subst h2; exact scan_back _ _ _ (by decide) (by decide)
  rw [if_neg h2]
  by_cases h3 : c = '\n'
  · subst h3; exact scan_back _ _ _ (by decide) (by decide)
  rw [if_neg h3]
  by_cases h4 : c = '\r'
  · subst h4; exact scan_back _ _ _ (by decide) (by decide)
  rw [if_neg h4]
  by_cases h5 : c = '\t'
  · subst h5; exact scan_back _ _ _ (by decide) (by decide)
  rw [if_neg h5]
  by_cases h6 : c.toNat = 12
  · rw [if_pos h6]
    have : c = Char.ofNat 12 := by rw [← h6, ofNat_toNat]
    subst this; exact scan_back _ _ _ (by decide) (by decide)
  rw [if_neg h6]
  by_cases h7 : c.toNat = 8
  · rw [if_pos h7]
    have : c = Char.ofNat 8 := by rw [← h7, ofNat_toNat]
    subst this; exact scan_back _ _ _ (by decide) (by decide)
  rw [if_neg h7]
  by_cases h8 : c.toNat < 32
  · rw [if_pos h8]
    have := scan_u '0' '0' _ _ c.toNat r (hex_small _ h8) (by omega)
    rw [ofNat_toNat] at this
    exact this
  · rw [if_neg h8]; exact scan_plain c r h1 h2 h8

theorem scan_escText (s r : Text) : scan (escText s ++ r) = some (s, r) := by
  unfold escText
  induction s with
  | nil => exact scan_quote r
  | cons c s ih =>
    rw [List.flatMap_cons, List.append_assoc, List.append_assoc, scan_escChar, ← List.append_assoc, ih, push_some]

/-- what was scanned is shorter -/
theorem scan_len (t : Text) : ∀ (s r : Text), scan t = some (s, r) → r.length < t.length := by
  have key : ∀ (c : Char) (o : Option (Text × Text)) (s r : Text), push c o = some (s, r) → ∃ s', o = some (s', r) := by
    intro c o s r h
    cases o with
    | none => cases h
    | some p => obtain ⟨a, b⟩ := p; rw [push_some] at h; cases h; exact ⟨a, rfl⟩
  induction ht : t.length using Nat.strongRecOn generalizing t with
  | _ k ih =>
  intro s r h
  cases t with
  | nil => rw [scan.eq_def] at h; cases h
  | cons c q =>
    rw [scan.eq_def] at h
    simp only at h
    by_cases h1 : c = '"'
    · rw [if_pos h1] at h; cases h; rw [← ht]; simp
    rw [if_neg h1] at h
    by_cases h2 : c = '\\'
    · rw [if_pos h2] at h
      cases q with
      | nil => cases h
      | cons e q =>
        simp only at h
        by_cases h3 : e = 'u'
        · rw [if_pos h3] at h
          match q, h, ht with
          | [], h, _ => cases h
          | [_], h, _ => cases h
          | [_, _], h, _ => cases h
          | [_, _, _], h, _ => cases h
          | a :: b :: c' :: d :: q, h, ht =>
            simp only at h
            cases hx : hex4 a b c' d with
            | none => rw [hx] at h; cases h
            | some n =>
              rw [hx] at h
              simp only at h
              by_cases h4 : 0xD800 ≤ n ∧ n ≤ 0xDBFF
              · rw [if_pos h4] at h
                match q, h, ht with
                | [], h, _ => cases h
                | [_], h, _ => cases h
                | [_, _], h, _ => cases h
                | [_, _, _], h, _ => cases h
                | [_, _, _, _], h, _ => cases h
                | [_, _, _, _, _], h, _ => cases h
                | b1 :: u :: g1 :: g2 :: g3 :: g4 :: q, h, ht =>
                  simp only at h
                  by_cases h5 : b1 = '\\' ∧ u = 'u'
                  · rw [if_pos h5] at h
                    cases hy : hex4 g1 g2 g3 g4 with
                    | none => rw [hy] at h; cases h
                    | some m =>
                      rw [hy] at h
                      simp only at h
                      by_cases h6 : 0xDC00 ≤ m ∧ m ≤ 0xDFFF
                      · rw [if_pos h6] at h
                        obtain ⟨s', hs⟩ := key _ _ _ _ h
                        have := ih q.length (by rw [← ht]; simp; omega) q rfl s' r hs
                        rw [← ht]; simp; omega
                      · rw [if_neg h6] at h; cases h
                  · rw [if_neg h5] at h; cases h
              · rw [if_neg h4] at h
                by_cases h5 : 0xDC00 ≤ n ∧ n ≤ 0xDFFF
                · rw [if_pos h5] at h; cases h
                · rw [if_neg h5] at h
                  obtain ⟨s', hs⟩ := key _ _ _ _ h
                  have := ih q.length (by rw [← ht]; simp; omega) q rfl s' r hs
                  rw [← ht]; simp; omega
        · rw [if_neg h3] at h
          cases hb : backslash e with
          | none => rw [hb] at h; cases h
          | some x =>
            rw [hb] at h
            simp only at h
            obtain ⟨s', hs⟩ := key _ _ _ _ h
            have := ih q.length (by rw [← ht]; simp; omega) q rfl s' r hs
            rw [← ht]; simp; omega
    · rw [if_neg h2] at h
      by_cases h3 : c.toNat < 32
      · rw [if_pos h3] at h; cases h
      · rw [if_neg h3] at h
        obtain ⟨s', hs⟩ := key _ _ _ _ h
        have := ih q.length (by rw [← ht]; simp) q rfl s' r hs
        rw [← ht]; simp; omega

/-! ### numbers -/

/-- what may follow a number -/
def Stop : Text → Prop
  | [] => True
  | c :: _ => isDigit c = false ∧ c ≠ '.' ∧ c ≠ 'e' ∧ c ≠ 'E'

theorem frac_stop (r : Text) (h : Stop r) : frac r = ([], r) := by
  cases r with
  | nil => rfl
  | cons c r =>
    rw [frac.eq_def]
    split
    · rename_i heq; cases heq; exact absurd rfl h.2.1
    · rfl

theorem exp_stop (r : Text) (h : Stop r) : expPart r = ([], r) := by
  cases r with
  | nil => rfl
  | cons c r => rw [expPart.eq_def]; simp only; rw [if_neg (by simp [h.2.2.1, h.2.2.2])]

theorem finish_stop (neg : Bool) (ds r : Text) (h : Stop r) : finish neg ds r = (.int (if neg then -(natOf ds : Int) else (natOf ds : Int)), r) := by
  unfold finish
  simp only [frac_stop r h, exp_stop r h]
  simp

theorem take_digits (ds r : Text) (h : ∀ c ∈ ds, isDigit c = true) (hr : Stop r) :
    (ds ++ r).takeWhile isDigit = ds ∧ (ds ++ r).dropWhile isDigit = r := by
  induction ds with
  | nil =>
    cases r with
    | nil => simp
    | cons c r => simp [List.takeWhile, List.dropWhile, hr.1]
  | cons c ds ih =>
    have hc := h c List.mem_cons_self
    obtain ⟨a, b⟩ := ih (fun d hd => h d (List.mem_cons_of_mem _ hd))
    simp [List.takeWhile, List.dropWhile, hc, a, b]

theorem showNat_zero : showNat 0 = ['0'] := by rw [showNat]; rfl

/-- no leading zero -/
theorem showNat_head (n : Nat) (h : n ≠ 0) : ∃ c r, showNat n = c :: r ∧ c ≠ '0' ∧ isDigit c = true ∧ ∀ d ∈ r, isDigit d = true := by
  induction n using Nat.strongRecOn with
  | _ n ih =>
  rw [showNat]
  by_cases h9 : n < 10
  · rw [if_pos h9]
    refine ⟨_, [], rfl, ?_, (digit_lt n h9).1, by simp⟩
    intro hc
    have := (digit_lt n h9).2
    rw [hc] at this
    exact h (by rw [← this]; rfl)
  · rw [if_neg h9]
    obtain ⟨c, r, h1, h2, h3, h4⟩ := ih (n / 10) (by omega) (by omega)
    refine ⟨c, r ++ [digit (n % 10)], by rw [h1]; rfl, h2, h3, ?_⟩
    intro d hd
    rcases List.mem_append.mp hd with hd | hd
    · exact h4 d hd
    · rw [List.mem_singleton.mp hd]; exact (digit_lt (n % 10) (by omega)).1

theorem intPart_show (n : Nat) (r : Text) (hr : Stop r) : intPart (showNat n ++ r) = some (showNat n, r) := by
  by_cases h : n = 0
  · subst h; rw [showNat_zero]; rfl
  · obtain ⟨c, q, h1, h2, h3, h4⟩ := showNat_head n h
    rw [h1, List.cons_append, intPart.eq_def]
    simp only [if_neg h2, if_pos h3]
    obtain ⟨a, b⟩ := take_digits q r h4 hr
    rw [a, b]

theorem natOf_show (n : Nat) : natOf (showNat n) = n := showNat_val n

theorem number_nat (n : Nat) (r : Text) (hr : Stop r) : number (showNat n ++ r) = some (.int n, r) := by
  have hi := intPart_show n r hr
  have hne : ∀ q, showNat n ++ r ≠ '-' :: q := by
    intro q hq
    cases hs : showNat n with
    | nil => exact showNat_ne n hs
    | cons c t =>
      rw [hs] at hq
      have := showNat_digits n c (by rw [hs]; simp)
      cases hq
      exact absurd this (by decide)
  rw [number.eq_def]
  split
  · rename_i heq; exact absurd heq (hne _)
  · rw [hi]; simp only; rw [finish_stop _ _ _ hr, natOf_show]; rfl

theorem number_neg (n : Nat) (r : Text) (hr : Stop r) : number ('-' :: (showNat n ++ r)) = some (.int (-(n : Int)), r) := by
  rw [number.eq_def]
  simp only [intPart_show n r hr, finish_stop _ _ _ hr, natOf_show, if_true]

theorem plain_number (c : Char) (r : Text) (h : c ≠ 'n' ∧ c ≠ 't' ∧ c ≠ 'f') : plain (c :: r) = number (c :: r) := by
  have e : ∀ (d : Char) (q : Text), c ≠ d → (d :: q).isPrefixOf (c :: r) = false := by
    intro d q hd
    simp [List.isPrefixOf, Ne.symm hd]
  unfold plain
  rw [e _ _ h.1, e _ _ h.2.1, e _ _ h.2.2]
  simp

theorem showInt_head (i : Int) : ∃ c r, showInt i = c :: r ∧ (c = '-' ∨ isDigit c = true) := by
  cases i with
  | ofNat n =>
    cases hs : showNat n with
    | nil => exact absurd hs (showNat_ne n)
    | cons c t => exact ⟨c, t, by simp only [showInt, hs], .inr (showNat_digits n c (by rw [hs]; simp))⟩
  | negSucc n => exact ⟨'-', _, rfl, .inl rfl⟩

theorem digit_ne {c d : Char} (h : c = '-' ∨ isDigit c = true) (hd : d.toNat < 45 ∨ (45 < d.toNat ∧ d.toNat < 48) ∨ 57 < d.toNat) : c ≠ d := by
  intro e
  subst e
  rcases h with h | h
  · subst h; revert hd; decide
  · have := isDigit_range c h; omega

theorem plain_int (i : Int) (r : Text) (hr : Stop r) : plain (showInt i ++ r) = some (.int i, r) := by
  obtain ⟨c, q, h1, h2⟩ := showInt_head i
  have e : plain (showInt i ++ r) = number (showInt i ++ r) := by
    rw [h1]
    exact plain_number c _ ⟨digit_ne h2 (by decide), digit_ne h2 (by decide), digit_ne h2 (by decide)⟩
  rw [e]
  cases i with
  | ofNat n => exact number_nat n r hr
  | negSucc n =>
    have := number_neg (n + 1) r hr
    rw [showInt]
    rw [List.cons_append, this]
    congr 2

/-! ### white space -/

theorem skip_cons (c : Char) (r : Text) (h : isWs c = false) : skip (c :: r) = c :: r := by simp [skip, List.dropWhile, h]

theorem skip_nl (lvl : Nat) (t : Text) : skip (nl lvl ++ t) = skip t := by
  unfold skip nl
  rw [List.cons_append, List.dropWhile_cons_of_pos (by decide)]
  induction (2 * lvl) with
  | zero => rfl
  | succ k ih => rw [List.replicate_succ, List.cons_append, List.dropWhile_cons_of_pos (by decide), ih]

theorem skip_len (t : Text) : (skip t).length ≤ t.length := (List.dropWhile_suffix isWs).length_le

/-! ### fuel -/

theorem take_drop_len (t : Text) : (t.dropWhile isDigit).length ≤ t.length := (List.dropWhile_suffix isDigit).length_le

theorem frac_len (t : Text) : (frac t).2.length ≤ t.length := by
  rw [frac.eq_def]
  split
  · rename_i r
    split
    · simp
    · have := take_drop_len r; simp; omega
  · simp

theorem expo_len (s r t : Text) (h : r.length ≤ t.length) : (expo s r t).2.length ≤ t.length := by
  unfold expo
  split
  · simp
  · have := take_drop_len r; simp; omega

theorem exp_len (t : Text) : (expPart t).2.length ≤ t.length := by
  rw [expPart.eq_def]
  split
  · simp
  · split
    · split <;> exact expo_len _ _ _ (by simp only [List.length_cons]; omega)
    · simp

theorem intPart_len (t ds q : Text) (h : intPart t = some (ds, q)) : q.length < t.length := by
  cases t with
  | nil => cases h
  | cons c r =>
    rw [intPart.eq_def] at h
    simp only at h
    by_cases h1 : c = '0'
    · rw [if_pos h1] at h; cases h; simp
    · rw [if_neg h1] at h
      by_cases h2 : isDigit c = true
      · rw [if_pos h2] at h; cases h
        have := take_drop_len r
        simp; omega
      · rw [if_neg h2] at h; cases h

theorem finish_len (neg : Bool) (ds r : Text) : (finish neg ds r).2.length ≤ r.length := by
  unfold finish
  have h1 := frac_len r
  have h2 := exp_len (frac r).2
  simp only
  split <;> (simp only; omega)

theorem prefix_len {p t : Text} (h : p.isPrefixOf t = true) (hp : p ≠ []) : (t.drop p.length).length < t.length := by
  have := (List.isPrefixOf_iff_prefix.mp h).length_le
  have hp' : 0 < p.length := List.length_pos_iff.mpr hp
  rw [List.length_drop]; omega

theorem number_len (t : Text) (v : JT) (r : Text) (h : number t = some (v, r)) : r.length < t.length := by
  rw [number.eq_def] at h
  split at h
  · rename_i q
    cases hi : intPart q with
    | none =>
      rw [hi] at h; simp only at h
      by_cases hp : "Infinity".toList.isPrefixOf q = true
      · rw [if_pos hp] at h; cases h; simp [List.length_drop]; omega
      · rw [if_neg hp] at h; cases h
    | some p =>
      obtain ⟨ds, z⟩ := p
      rw [hi] at h; simp only at h
      have h1 := intPart_len _ _ _ hi
      have h2 := finish_len true ds z
      have : finish true ds z = (v, r) := Option.some.inj h
      rw [this] at h2
      simp only at h2
      simp; omega
  · rename_i q _
    cases hi : intPart t with
    | none =>
      rw [hi] at h; simp only at h
      by_cases hp : "NaN".toList.isPrefixOf t = true
      · rw [if_pos hp] at h; cases h; exact prefix_len hp (by decide)
      · rw [if_neg hp] at h
        by_cases hq : "Infinity".toList.isPrefixOf t = true
        · rw [if_pos hq] at h; cases h; exact prefix_len hq (by decide)
        · rw [if_neg hq] at h; cases h
    | some p =>
      obtain ⟨ds, z⟩ := p
      rw [hi] at h; simp only at h
      have h1 := intPart_len _ _ _ hi
      have h2 := finish_len false ds z
      have : finish false ds z = (v, r) := Option.some.inj h
      rw [this] at h2
      simp only at h2
      omega

theorem plain_len (t : Text) (v : JT) (r : Text) (h : plain t = some (v, r)) : r.length < t.length := by
  unfold plain at h
  by_cases h1 : ['n', 'u', 'l', 'l'].isPrefixOf t = true
  · rw [if_pos h1] at h; cases h; exact prefix_len h1 (by decide)
  rw [if_neg h1] at h
  by_cases h2 : ['t', 'r', 'u', 'e'].isPrefixOf t = true
  · rw [if_pos h2] at h; cases h; exact prefix_len h2 (by decide)
  rw [if_neg h2] at h
  by_cases h3 : ['f', 'a', 'l', 's', 'e'].isPrefixOf t = true
  · rw [if_pos h3] at h; cases h; exact prefix_len h3 (by decide)
  rw [if_neg h3] at h
  exact number_len t v r h

end V8.JsonText
