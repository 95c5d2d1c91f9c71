import Verif.Text
/-
Python's str(int) and int(str) on lists of characters (ASCII digits; other Unicode digits, which int() also accepts, are
not modelled).
-/
namespace V8.Dec

def digit (n : Nat) : Char := Char.ofNat (48 + n)
def isDigit (c : Char) : Bool := decide (48 ≤ c.toNat) && decide (c.toNat ≤ 57)
def digitVal (c : Char) : Nat := c.toNat - 48

/-- str(n) for a natural number -/
def showNat (n : Nat) : Text := if n < 10 then [digit n] else showNat (n / 10) ++ [digit (n % 10)]
termination_by n

/-- str(n) -/
def showInt : Int → Text
  | .ofNat n => showNat n
  | .negSucc n => '-' :: showNat (n + 1)

/-- digits with single underscores between them; `acc` is the value so far, `ok` whether the last character was a digit -/
def digits : Nat → Bool → Text → Option Nat
  | acc, ok, [] => if ok then some acc else none
  | acc, ok, c :: t =>
    if isDigit c then digits (acc * 10 + digitVal c) true t
    else if c = '_' ∧ ok = true then digits acc false t
    else none

/-- int(s); `none` is ValueError -/
def parseInt (s : Text) : Option Int :=
  match Str.strip s with
  | '-' :: t => (digits 0 false t).map (fun (n : Nat) => -(n : Int))
  | '+' :: t => (digits 0 false t).map (fun (n : Nat) => (n : Int))
  | t => (digits 0 false t).map (fun (n : Nat) => (n : Int))

theorem digit_lt (n : Nat) (h : n < 10) : isDigit (digit n) = true ∧ digitVal (digit n) = n := by
  have : n = 0 ∨ n = 1 ∨ n = 2 ∨ n = 3 ∨ n = 4 ∨ n = 5 ∨ n = 6 ∨ n = 7 ∨ n = 8 ∨ n = 9 := by omega
  rcases this with h | h | h | h | h | h | h | h | h | h <;> subst h <;> decide

theorem digits_append (a b : Text) (h : ∀ c ∈ a, isDigit c = true) (acc : Nat) (ok : Bool) (hne : a ≠ []) :
    digits acc ok (a ++ b) = digits (a.foldl (fun x c => x * 10 + digitVal c) acc) true b := by
  induction a generalizing acc ok with
  | nil => exact absurd rfl hne
  | cons c a ih =>
    rw [List.cons_append, digits, if_pos (h c (by simp))]
    by_cases ha : a = []
    · subst ha; rfl
    · rw [ih (fun d hd => h d (by simp [hd])) _ _ ha]; rfl

theorem showNat_digits (n : Nat) : ∀ c ∈ showNat n, isDigit c = true := by
  induction n using Nat.strongRecOn with
  | ind n ih =>
    rw [showNat]
    split
    · rename_i h; intro c hc; simp at hc; subst hc; exact (digit_lt n h).1
    · rename_i h
      intro c hc
      rcases List.mem_append.mp hc with hc | hc
      · exact ih (n / 10) (by omega) c hc
      · simp at hc; subst hc; exact (digit_lt _ (Nat.mod_lt _ (by decide))).1

theorem showNat_ne (n : Nat) : showNat n ≠ [] := by
  rw [showNat]; split <;> simp

theorem showNat_val (n : Nat) : (showNat n).foldl (fun x c => x * 10 + digitVal c) 0 = n := by
  induction n using Nat.strongRecOn with
  | ind n ih =>
    rw [showNat]
    split
    · rename_i h; simp [(digit_lt n h).2]
    · rename_i h
      rw [List.foldl_append, ih (n / 10) (by omega)]
      simp only [List.foldl_cons, List.foldl_nil, (digit_lt _ (Nat.mod_lt n (by decide : 0 < 10))).2]
      omega

theorem isDigit_range (c : Char) (h : isDigit c = true) : 48 ≤ c.toNat ∧ c.toNat ≤ 57 := by
  unfold isDigit at h; simpa using h

theorem isDigit_noSpace (c : Char) (h : isDigit c = true) : Str.isSpace c = false := by
  have := isDigit_range c h
  unfold Str.isSpace
  simp only [Bool.or_eq_false_iff, Bool.and_eq_false_iff, decide_eq_false_iff_not, beq_eq_false_iff_ne]
  omega

theorem dropWhile_id (p : Char → Bool) (s : Text) (h : ∀ c ∈ s, p c = false) : s.dropWhile p = s := by
  cases s with
  | nil => rfl
  | cons c s => rw [List.dropWhile_cons, h c (by simp)]; simp

theorem strip_id (s : Text) (h : ∀ c ∈ s, Str.isSpace c = false) : Str.strip s = s := by
  unfold Str.strip Str.rstrip Str.lstrip
  rw [dropWhile_id _ s h, dropWhile_id _ _ (by intro c hc; exact h c (by simpa using hc)), List.reverse_reverse]

theorem strip_showNat (n : Nat) : Str.strip (showNat n) = showNat n :=
  strip_id _ (fun c hc => isDigit_noSpace c (showNat_digits n c hc))

/-- int(str(n)) = n -/
theorem parse_showNat (n : Nat) : parseInt (showNat n) = some (n : Int) := by
  unfold parseInt
  rw [strip_showNat]
  have hd := showNat_digits n
  have hne := showNat_ne n
  have hval : digits 0 false (showNat n) = some n := by
    have := digits_append (showNat n) [] hd 0 false hne
    rw [List.append_nil, showNat_val] at this
    rw [this]; rfl
  split
  · rename_i t ht
    have := hd '-' (by rw [ht]; simp)
    exact absurd this (by decide)
  · rename_i t ht
    have := hd '+' (by rw [ht]; simp)
    exact absurd this (by decide)
  · rw [hval]; rfl

theorem showNat_inj {a b : Nat} (h : showNat a = showNat b) : a = b := by
  have ha := parse_showNat a
  rw [h, parse_showNat b] at ha
  injection ha with ha
  omega

theorem showNat_noDot (n : Nat) : '.' ∉ showNat n := by
  intro h
  have := showNat_digits n '.' h
  revert this; decide

end V8.Dec
