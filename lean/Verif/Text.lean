import Verif.BraceParity
/-
Python `str` operations used by the modelled code, on lists of characters.
-/
namespace V8
abbrev Text := List Char

namespace Str

/-- `str.isspace` for one character (CPython's table) -/
def isSpace (c : Char) : Bool :=
  let n := c.toNat
  (9 ≤ n && n ≤ 13) || (28 ≤ n && n ≤ 32) || n == 0x85 || n == 0xA0 || n == 0x1680 || (0x2000 ≤ n && n ≤ 0x200A) ||
  n == 0x2028 || n == 0x2029 || n == 0x202F || n == 0x205F || n == 0x3000

/-- `s.lstrip()` -/
def lstrip (s : Text) : Text := s.dropWhile isSpace
/-- `s.rstrip()` -/
def rstrip (s : Text) : Text := (s.reverse.dropWhile isSpace).reverse
/-- `s.strip()` -/
def strip (s : Text) : Text := rstrip (lstrip s)

/-- `s.startswith(p)` -/
def starts (p s : Text) : Bool := p.isPrefixOf s
/-- `s.endswith(p)` -/
def ends (p s : Text) : Bool := p.isSuffixOf s

/-- `s[s.rfind(pat):]` when `pat` (non-empty) occurs in `s` -/
def rfindDrop (pat : Text) : Text → Option Text
  | [] => none
  | c :: t => match rfindDrop pat t with
    | some r => some r
    | none => if starts pat (c :: t) then some (c :: t) else none

/-- `s` before the first occurrence of `sep` (non-empty), and what follows it if it occurs: the first step of `s.split(sep)` -/
def breakOn (sep : Text) : Text → Text × Option Text
  | [] => ([], none)
  | c :: t =>
    if starts sep (c :: t) then ([], some ((c :: t).drop sep.length))
    else let (a, b) := breakOn sep t; (c :: a, b)

/-- `s.split(d)` for one character: never empty -/
def split (d : Char) : Text → List Text
  | [] => [[]]
  | c :: t =>
    if c = d then [] :: split d t
    else match split d t with
      | [] => [[c]]
      | a :: r => (c :: a) :: r

/-- `sep.join(parts)` for one character -/
def join (d : Char) : List Text → Text
  | [] => []
  | [a] => a
  | a :: b :: r => a ++ d :: join d (b :: r)

theorem split_ne (d : Char) (s : Text) : split d s ≠ [] := by
  cases s with
  | nil => simp [split]
  | cons c t => rw [split]; split; simp; split <;> simp

theorem join_split (d : Char) (s : Text) : join d (split d s) = s := by
  induction s with
  | nil => rfl
  | cons c t ih =>
    rw [split]
    split
    · rename_i h; subst h
      cases hs : split c t with
      | nil => exact absurd hs (split_ne c t)
      | cons a r => rw [hs] at ih; simp [join, ih]
    · cases hs : split d t with
      | nil => exact absurd hs (split_ne d t)
      | cons a r =>
        rw [hs] at ih
        cases r with
        | nil => simp [join] at ih ⊢; exact ih
        | cons b r => simp [join] at ih ⊢; exact ih

theorem split_clean (d : Char) (s : Text) (h : d ∉ s) : split d s = [s] := by
  induction s with
  | nil => rfl
  | cons c t ih =>
    simp only [List.mem_cons, not_or] at h
    rw [split, if_neg (Ne.symm h.1), ih h.2]

theorem split_append (d : Char) (a s : Text) (h : d ∉ a) : split d (a ++ d :: s) = a :: split d s := by
  induction a with
  | nil => simp [split]
  | cons c t ih =>
    simp only [List.mem_cons, not_or] at h
    rw [List.cons_append, split, if_neg (Ne.symm h.1), ih h.2]

theorem split_mem (d : Char) (s : Text) : ∀ p ∈ split d s, d ∉ p := by
  induction s with
  | nil => simp [split]
  | cons c t ih =>
    rw [split]
    split
    · intro p hp
      rcases List.mem_cons.mp hp with rfl | hp
      · simp
      · exact ih p hp
    · rename_i h
      split
      · intro p hp; simp at hp; subst hp; simpa using Ne.symm h
      · rename_i a r hs
        rw [hs] at ih
        intro p hp
        rcases List.mem_cons.mp hp with rfl | hp
        · simp only [List.mem_cons, not_or]; exact ⟨Ne.symm h, ih a (by simp)⟩
        · exact ih p (by simp [hp])

theorem split_join (d : Char) (l : List Text) (hne : l ≠ []) (h : ∀ p ∈ l, d ∉ p) : split d (join d l) = l := by
  induction l with
  | nil => exact absurd rfl hne
  | cons a r ih =>
    cases r with
    | nil => exact split_clean d a (h a (by simp))
    | cons b r =>
      rw [join, split_append d _ _ (h a (by simp)), ih (by simp) (fun p hp => h p (by simp [hp]))]

end Str
end V8
