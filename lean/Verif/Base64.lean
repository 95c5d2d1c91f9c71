import Verif.Bytes
import Verif.Text
/-
Base64 as Python's base64.b64encode and base64.b64decode (binascii.a2b_base64 in its default, non-strict mode).
-/
namespace V8.B64

/-- the character of a group of six bits -/
def alpha (n : Nat) : Char :=
  if n < 26 then Char.ofNat (65 + n) else if n < 52 then Char.ofNat (71 + n) else if n < 62 then Char.ofNat (n - 4)
  else if n = 62 then '+' else '/'

/-- the six bits of a character; `none` for characters outside the alphabet -/
def value (c : Char) : Option Nat :=
  let n := c.toNat
  if 65 ≤ n ∧ n ≤ 90 then some (n - 65) else if 97 ≤ n ∧ n ≤ 122 then some (n - 71) else if 48 ≤ n ∧ n ≤ 57 then some (n + 4)
  else if c = '+' then some 62 else if c = '/' then some 63 else none

/-- b64encode -/
def encode : Bytes → Text
  | [] => []
  | [a] => [alpha (a.toNat / 4), alpha (a.toNat % 4 * 16), '=', '=']
  | [a, b] => [alpha (a.toNat / 4), alpha (a.toNat % 4 * 16 + b.toNat / 16), alpha (b.toNat % 16 * 4), '=']
  | a :: b :: c :: r =>
    alpha (a.toNat / 4) :: alpha (a.toNat % 4 * 16 + b.toNat / 16) :: alpha (b.toNat % 16 * 4 + c.toNat / 64) :: alpha (c.toNat % 64)
      :: encode r

/-- a2b_base64: `quad` is the position in the group of four, `left` the bits not yet written, `pads` the number of `=` since the last character of
the alphabet; foreign characters are skipped; `none` is binascii.Error -/
def decodeFrom (quad left pads : Nat) : Text → Option Bytes
  | [] => if quad = 0 then some [] else none
  | c :: t =>
    if c = '=' then
      if 2 ≤ quad then
        if 4 ≤ quad + (pads + 1) then some [] else decodeFrom quad left (pads + 1) t
      else decodeFrom quad left pads t
    else match value c with
      | none => decodeFrom quad left pads t
      | some v =>
        match quad with
        | 0 => decodeFrom 1 v 0 t
        | 1 => (decodeFrom 2 (v % 16) 0 t).map (UInt8.ofNat (left * 4 + v / 16) :: ·)
        | 2 => (decodeFrom 3 (v % 4) 0 t).map (UInt8.ofNat (left * 16 + v / 4) :: ·)
        | _ => (decodeFrom 0 0 0 t).map (UInt8.ofNat (left * 64 + v) :: ·)

/-- b64decode of a string: characters outside ASCII are an error (ValueError) -/
def decode (t : Text) : Option Bytes := if t.all (fun c => decide (c.toNat < 128)) then decodeFrom 0 0 0 t else none

theorem value_alpha : ∀ n < 64, value (alpha n) = some n ∧ alpha n ≠ '=' ∧ (alpha n).toNat < 128 ∧ alpha n ≠ '#' ∧ alpha n ≠ ':' := by
  decide

theorem step (q l p n : Nat) (t : Text) (hn : n < 64) : decodeFrom q l p (alpha n :: t) = match q with
    | 0 => decodeFrom 1 n 0 t
    | 1 => (decodeFrom 2 (n % 16) 0 t).map (UInt8.ofNat (l * 4 + n / 16) :: ·)
    | 2 => (decodeFrom 3 (n % 4) 0 t).map (UInt8.ofNat (l * 16 + n / 4) :: ·)
    | _ => (decodeFrom 0 0 0 t).map (UInt8.ofNat (l * 64 + n) :: ·) := by
  rw [decodeFrom, if_neg (value_alpha n hn).2.1, (value_alpha n hn).1]

theorem byte_eq (a : UInt8) (n : Nat) (h : n = a.toNat) : UInt8.ofNat n = a := by subst h; exact UInt8.ofNat_toNat

theorem decodeFrom_encode (b : Bytes) : ∀ p, decodeFrom 0 0 p (encode b) = some b := by
  fun_induction encode b with
  | case1 => intro p; rfl
  | case2 a =>
    intro p
    have ha := a.toNat_lt
    rw [step _ _ _ _ _ (by omega)]; simp only
    rw [step _ _ _ _ _ (by omega)]; simp only
    rw [byte_eq a _ (by omega)]
    rfl
  | case3 a b =>
    intro p
    have ha := a.toNat_lt
    have hb := b.toNat_lt
    rw [step _ _ _ _ _ (by omega)]; simp only
    rw [step _ _ _ _ _ (by omega)]; simp only
    rw [step _ _ _ _ _ (by omega)]; simp only
    rw [byte_eq a _ (by omega), byte_eq b _ (by omega)]
    rfl
  | case4 a b c r ih =>
    intro p
    have ha := a.toNat_lt
    have hb := b.toNat_lt
    have hc := c.toNat_lt
    rw [step _ _ _ _ _ (by omega)]; simp only
    rw [step _ _ _ _ _ (by omega)]; simp only
    rw [step _ _ _ _ _ (by omega)]; simp only
    rw [step _ _ _ _ _ (by omega)]; simp only
    rw [byte_eq a _ (by omega), byte_eq b _ (by omega), byte_eq c _ (by omega), ih]
    rfl

theorem encode_chars (b : Bytes) : ∀ c ∈ encode b, c.toNat < 128 ∧ c ≠ '#' ∧ c ≠ ':' := by
  fun_induction encode b with
  | case1 => simp
  | case2 a =>
    have ha := a.toNat_lt
    simp only [List.mem_cons, List.not_mem_nil, or_false, forall_eq_or_imp, forall_eq]
    exact ⟨(value_alpha _ (by omega)).2.2, (value_alpha _ (by omega)).2.2, by decide, by decide⟩
  | case3 a b =>
    have ha := a.toNat_lt
    have hb := b.toNat_lt
    simp only [List.mem_cons, List.not_mem_nil, or_false, forall_eq_or_imp, forall_eq]
    exact ⟨(value_alpha _ (by omega)).2.2, (value_alpha _ (by omega)).2.2, (value_alpha _ (by omega)).2.2, by decide⟩
  | case4 a b c r ih =>
    have ha := a.toNat_lt
    have hb := b.toNat_lt
    have hc := c.toNat_lt
    intro x hx
    simp only [List.mem_cons] at hx
    rcases hx with rfl | rfl | rfl | rfl | hx
    · exact (value_alpha _ (by omega)).2.2
    · exact (value_alpha _ (by omega)).2.2
    · exact (value_alpha _ (by omega)).2.2
    · exact (value_alpha _ (by omega)).2.2
    · exact ih x hx

theorem ascii_encode (b : Bytes) : (encode b).all (fun c => decide (c.toNat < 128)) = true := by
  rw [List.all_eq_true]
  intro c hc
  exact decide_eq_true (encode_chars b c hc).1

theorem decode_encode (b : Bytes) : decode (encode b) = some b := by
  rw [decode, if_pos (ascii_encode b), decodeFrom_encode]

theorem encode_inj {a b : Bytes} (h : encode a = encode b) : a = b := by
  have := decode_encode a
  rw [h, decode_encode] at this
  exact (Option.some.inj this).symm

/-- one character outside the alphabet before the text is skipped -/
theorem decode_skip (c : Char) (b : Bytes) (h1 : value c = none) (h2 : c ≠ '=') (h3 : c.toNat < 128) :
    decode (c :: encode b) = some b := by
  rw [decode, if_pos (by rw [List.all_cons, ascii_encode, Bool.and_true]; exact decide_eq_true h3), decodeFrom, if_neg h2, h1]
  exact decodeFrom_encode b 0

end V8.B64
