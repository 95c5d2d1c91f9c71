import Verif.Zlib
import Verif.BytesLemmas
/-
C08 (streaming decompression), C09 (portions of compression).
-/
namespace V8.Zlib

/-! ### specification -/

/-- what a one-shot inflate of the whole file gives: the output; `none` if the stream is damaged -/
def oneShot (I : Inflater) (stored : Bytes) : Option Bytes := (I.run I.init stored).map (·.2)

/-- the inflater is silent on the `k`-th portion of `n` bytes: a portion that is there, can be inflated and gives no output -/
def SilentPortion (I : Inflater) (n k : Nat) (stored : Bytes) : Prop :=
  k * n < stored.length ∧ ∃ s s' o, I.run I.init (stored.take (k * n)) = some (s, o) ∧
    I.run s ((stored.drop (k * n)).take n) = some (s', [])

/-! ### running -/

theorem run_append (I : Inflater) (a b : Bytes) : ∀ s, I.run s (a ++ b) = match I.run s a with
    | none => none
    | some (s', o) => match I.run s' b with
      | none => none
      | some (s'', o') => some (s'', o ++ o') := by
  induction a with
  | nil =>
    intro s
    rw [List.nil_append, Inflater.run]
    cases h : I.run s b with
    | none => simp [h]
    | some p => simp [h]
  | cons x a ih =>
    intro s
    rw [List.cons_append, Inflater.run, Inflater.run]
    cases h : I.feed s x with
    | none => rfl
    | some p =>
      simp only
      rw [ih]
      cases h2 : I.run p.1 a with
      | none => rfl
      | some q =>
        simp only
        cases h3 : I.run q.1 b with
        | none => rfl
        | some r => simp only [List.append_assoc]

theorem loop_step (I : Inflater) (n : Nat) (hn : 0 < n) (s : I.σ) (rest : Bytes) (hr : rest ≠ []) :
    inflateLoop I n s rest = match I.run s (rest.take n) with
      | none => none
      | some (s', data) => if data = [] then some [] else (inflateLoop I n s' (rest.drop n)).map (data ++ ·) := by
  rw [inflateLoop, dif_neg (by simp [hr]; omega)]
  cases I.run s (rest.take n) <;> rfl

theorem loop_nil (I : Inflater) (n : Nat) (s : I.σ) : inflateLoop I n s [] = some [] := by
  rw [inflateLoop, dif_pos (Or.inl rfl)]

/-- the `k`-th portion gives no output, from the state `s` on -/
def SilentFrom (I : Inflater) (n : Nat) (s : I.σ) (k : Nat) (rest : Bytes) (o1 : Bytes) : Prop :=
  k * n < rest.length ∧ ∃ s1 s2, I.run s (rest.take (k * n)) = some (s1, o1) ∧ I.run s1 ((rest.drop (k * n)).take n) = some (s2, [])

theorem silent_zero (I : Inflater) (n : Nat) (s s1 : I.σ) (rest : Bytes) (hr : rest ≠ []) (h : I.run s (rest.take n) = some (s1, [])) :
    SilentFrom I n s 0 rest [] := by
  refine ⟨by have := List.length_pos_iff.mpr hr; omega, s, s1, ?_, ?_⟩
  · rw [Nat.zero_mul, List.take_zero, Inflater.run]
  · rw [Nat.zero_mul, List.drop_zero]; exact h

theorem take_succ_mul (n k : Nat) (rest : Bytes) (hlen : n ≤ rest.length) :
    rest.take ((k + 1) * n) = rest.take n ++ (rest.drop n).take (k * n) := by
  have e : (k + 1) * n = n + k * n := by rw [Nat.succ_mul, Nat.add_comm]
  rw [e, List.take_add]

theorem silent_succ (I : Inflater) (n : Nat) (s s1 : I.σ) (rest data o : Bytes) (k : Nat) (h : I.run s (rest.take n) = some (s1, data))
    (hk : SilentFrom I n s1 k (rest.drop n) o) : SilentFrom I n s (k + 1) rest (data ++ o) := by
  obtain ⟨hl, t1, t2, h1, h2⟩ := hk
  rw [List.length_drop] at hl
  refine ⟨by rw [Nat.succ_mul]; omega, t1, t2, ?_, ?_⟩
  · rw [take_succ_mul n k rest (by omega), run_append, h]
    simp only
    rw [h1]
  · rw [List.drop_drop] at h2
    rw [Nat.succ_mul, Nat.add_comm]
    exact h2

theorem silent_pred (I : Inflater) (n : Nat) (s s1 : I.σ) (rest data o : Bytes) (k : Nat) (h : I.run s (rest.take n) = some (s1, data))
    (hk : SilentFrom I n s (k + 1) rest o) : ∃ o', o = data ++ o' ∧ SilentFrom I n s1 k (rest.drop n) o' := by
  obtain ⟨hl, t1, t2, h1, h2⟩ := hk
  rw [Nat.succ_mul] at hl
  rw [take_succ_mul n k rest (by omega), run_append, h] at h1
  simp only at h1
  cases hr : I.run s1 ((rest.drop n).take (k * n)) with
  | none => rw [hr] at h1; cases h1
  | some q =>
    rw [hr] at h1
    simp only [Option.some.injEq, Prod.mk.injEq] at h1
    refine ⟨q.2, h1.2.symm, by rw [List.length_drop]; omega, q.1, t2, hr, ?_⟩
    rw [List.drop_drop, h1.1, ← h2, Nat.succ_mul, Nat.add_comm]

/-- the loop writes a beginning of the output; all of it exactly when every silent portion comes after the last output -/
theorem loop_main (I : Inflater) (n : Nat) (hn : 0 < n) : ∀ (m : Nat) (s : I.σ) (rest : Bytes), rest.length ≤ m →
    ∀ s' o, I.run s rest = some (s', o) → ∃ w t, inflateLoop I n s rest = some w ∧ o = w ++ t ∧
      (t = [] ↔ ∀ k o1, SilentFrom I n s k rest o1 → o1 = o) := by
  intro m
  have empty : ∀ (s : I.σ) s' o, I.run s [] = some (s', o) → ∃ w t, inflateLoop I n s [] = some w ∧ o = w ++ t ∧
      (t = [] ↔ ∀ k o1, SilentFrom I n s k [] o1 → o1 = o) := by
    intro s s' o h
    rw [Inflater.run] at h
    cases h
    exact ⟨[], [], loop_nil I n s, rfl, fun _ k o1 hk => absurd hk.1 (by simp), fun _ => rfl⟩
  induction m with
  | zero =>
    intro s rest h
    have h0 : rest = [] := List.length_eq_zero_iff.mp (by omega)
    subst h0
    exact empty s
  | succ m ih =>
    intro s rest h s' o ho
    by_cases hr : rest = []
    · subst hr; exact empty s s' o ho
    have hl : (rest.drop n).length ≤ m := by
      have := List.length_pos_iff.mpr hr
      rw [List.length_drop]; omega
    have hsplit := run_append I (rest.take n) (rest.drop n) s
    rw [List.take_append_drop, ho] at hsplit
    rw [loop_step I n hn s rest hr]
    cases h1 : I.run s (rest.take n) with
    | none => rw [h1] at hsplit; cases hsplit
    | some p =>
      obtain ⟨s1, data⟩ := p
      rw [h1] at hsplit
      simp only at hsplit ⊢
      cases h2 : I.run s1 (rest.drop n) with
      | none => rw [h2] at hsplit; cases hsplit
      | some q =>
        obtain ⟨s2, o2⟩ := q
        rw [h2] at hsplit
        simp only [Option.some.injEq, Prod.mk.injEq] at hsplit
        obtain ⟨w, t, hw, ht, hiff⟩ := ih s1 (rest.drop n) hl s2 o2 h2
        by_cases hd : data = []
        · subst hd
          rw [if_pos rfl]
          refine ⟨[], o, rfl, rfl, ?_, ?_⟩
          · intro h0 k o1 hk
            obtain ⟨_, t1, t2, hk1, _⟩ := hk
            have e := run_append I (rest.take (k * n)) (rest.drop (k * n)) s
            rw [List.take_append_drop, ho, hk1] at e
            simp only at e
            cases h3 : I.run t1 (rest.drop (k * n)) with
            | none => rw [h3] at e; cases e
            | some r =>
              rw [h3] at e
              simp only [Option.some.injEq, Prod.mk.injEq] at e
              rw [h0] at e
              rw [h0, (List.append_eq_nil_iff.mp e.2.symm).1]
          · intro hk
            exact (hk 0 [] (silent_zero I n s s1 rest hr h1)).symm
        · rw [if_neg hd]
          refine ⟨data ++ w, t, by rw [hw]; rfl, by rw [hsplit.2, ht, List.append_assoc], ?_⟩
          rw [hiff]
          constructor
          · intro hh k o1 hk
            cases k with
            | zero =>
              obtain ⟨_, t1, t2, hk1, hk2⟩ := hk
              rw [Nat.zero_mul, List.take_zero, Inflater.run] at hk1
              cases hk1
              rw [Nat.zero_mul, List.drop_zero, h1] at hk2
              cases hk2
              exact absurd rfl hd
            | succ k =>
              obtain ⟨o', e, hk'⟩ := silent_pred I n s s1 rest data o1 k h1 hk
              rw [e, hsplit.2, hh k o' hk']
          · intro hh k o1 hk
            have := hh (k + 1) (data ++ o1) (silent_succ I n s s1 rest data o1 k h1 hk)
            rw [hsplit.2] at this
            exact List.append_cancel_left this

/-- a damaged stream is reported if no portion before the damage is silent -/
theorem loop_error (I : Inflater) (n : Nat) (hn : 0 < n) : ∀ (m : Nat) (s : I.σ) (rest : Bytes), rest.length ≤ m →
    I.run s rest = none → (∀ k o1, ¬ SilentFrom I n s k rest o1) → inflateLoop I n s rest = none := by
  intro m
  induction m with
  | zero =>
    intro s rest h hn
    have h0 : rest = [] := List.length_eq_zero_iff.mp (by omega)
    subst h0
    cases hn
  | succ m ih =>
    intro s rest h hno hs
    by_cases hr : rest = []
    · subst hr; cases hno
    have hl : (rest.drop n).length ≤ m := by
      have := List.length_pos_iff.mpr hr
      rw [List.length_drop]; omega
    have hsplit := run_append I (rest.take n) (rest.drop n) s
    rw [List.take_append_drop, hno] at hsplit
    rw [loop_step I n hn s rest hr]
    cases h1 : I.run s (rest.take n) with
    | none => rfl
    | some p =>
      obtain ⟨s1, data⟩ := p
      rw [h1] at hsplit
      simp only at hsplit ⊢
      by_cases hd : data = []
      · subst hd
        exact absurd (silent_zero I n s s1 rest hr h1) (hs 0 [])
      · rw [if_neg hd, ih s1 (rest.drop n) hl ?_ ?_]
        · rfl
        · cases h2 : I.run s1 (rest.drop n) with
          | none => rfl
          | some q => rw [h2] at hsplit; cases hsplit
        · intro k o1 hk
          exact hs (k + 1) (data ++ o1) (silent_succ I n s s1 rest data o1 k h1 hk)

/-- **C08, prefix.**  Whatever the stream, the bytes written are a beginning of what a one-shot inflate gives. -/
theorem C08_prefix (I : Inflater) (stored out : Bytes) (h : oneShot I stored = some out) :
    ∃ w rest, decompressFile I stored = some w ∧ out = w ++ rest := by
  rw [oneShot] at h
  cases hr : I.run I.init stored with
  | none => rw [hr] at h; cases h
  | some p =>
    rw [hr] at h
    cases h
    obtain ⟨w, t, h1, h2, _⟩ := loop_main I 8192 (by omega) stored.length I.init stored (Nat.le_refl _) p.1 p.2 hr
    exact ⟨w, t, h1, h2⟩

/-- **C08, exactly.**  The file that is written is the one-shot output exactly when all of the output comes before the first silent portion of
8192 bytes. -/
theorem C08_iff (I : Inflater) (stored out : Bytes) (h : oneShot I stored = some out) :
    decompressFile I stored = some out ↔
      ∀ k, SilentPortion I 8192 k stored → oneShot I (stored.take (k * 8192)) = some out := by
  have h0 := h
  rw [oneShot] at h
  cases hr : I.run I.init stored with
  | none => rw [hr] at h; cases h
  | some p =>
    rw [hr] at h
    cases h
    obtain ⟨w, t, h1, h2, h3⟩ := loop_main I 8192 (by omega) stored.length I.init stored (Nat.le_refl _) p.1 p.2 hr
    have e : decompressFile I stored = some p.2 ↔ t = [] := by
      rw [decompressFile, h1]
      constructor
      · intro hw
        cases hw
        exact List.append_cancel_left (by rw [← h2, List.append_nil] : p.2 ++ t = p.2 ++ [])
      · intro ht
        rw [h2, ht, List.append_nil]
    rw [e, h3]
    constructor
    · rintro hh k ⟨hl, s, s', o, ha, hb⟩
      rw [oneShot, ha, hh k o ⟨hl, s, s', ha, hb⟩]
      rfl
    · rintro hh k o1 ⟨hl, s, s', ha, hb⟩
      have := hh k ⟨hl, s, s', o1, ha, hb⟩
      rw [oneShot, ha] at this
      cases this
      rfl

/-- **C08, complete.**  If no portion of 8192 bytes is silent, the file that is written is the one-shot output; damaged streams are
reported. -/
theorem C08_complete_partial (I : Inflater) (stored : Bytes) (h : ∀ k, ¬ SilentPortion I 8192 k stored) :
    decompressFile I stored = oneShot I stored := by
  cases hr : I.run I.init stored with
  | none =>
    rw [oneShot, hr]
    refine loop_error I 8192 (by omega) stored.length I.init stored (Nat.le_refl _) hr ?_
    rintro k o ⟨hl, s, s', ha, hb⟩
    exact h k ⟨hl, s, s', o, ha, hb⟩
  | some p =>
    have e : oneShot I stored = some p.2 := by rw [oneShot, hr]; rfl
    rw [e]
    exact (C08_iff I stored p.2 e).mpr (fun k hk => absurd hk (h k))

/-- **C08 is silent about truncation**: a stream cut anywhere is written out as far as it goes; nothing looks whether the stream has ended. -/
theorem C08_truncated_accepted (I : Inflater) (stored out : Bytes) (n : Nat) (h : oneShot I stored = some out) :
    ∃ w, decompressFile I (stored.take n) = some w ∧ w <+: out := by
  rw [oneShot] at h
  cases hr : I.run I.init stored with
  | none => rw [hr] at h; cases h
  | some p =>
    rw [hr] at h
    cases h
    have e := run_append I (stored.take n) (stored.drop n) I.init
    rw [List.take_append_drop, hr] at e
    cases h1 : I.run I.init (stored.take n) with
    | none => rw [h1] at e; cases e
    | some q =>
      rw [h1] at e
      simp only at e
      cases h2 : I.run q.1 (stored.drop n) with
      | none => rw [h2] at e; cases e
      | some r =>
        rw [h2] at e
        simp only [Option.some.injEq] at e
        obtain ⟨w, t, hw, ht⟩ := C08_prefix I (stored.take n) q.2 (by rw [oneShot, h1]; rfl)
        refine ⟨w, hw, t ++ r.2, ?_⟩
        rw [e, ht, List.append_assoc]

/-! ### stored blocks -/

theorem run_cons (I : Inflater) (s s' : I.σ) (b : UInt8) (o bs : Bytes) (h : I.feed s b = some (s', o)) :
    I.run s (b :: bs) = (I.run s' bs).map (fun q => (q.1, o ++ q.2)) := by
  rw [Inflater.run, h]
  simp only
  cases I.run s' bs <;> rfl

theorem run_cons_silent (I : Inflater) (s s' : I.σ) (b : UInt8) (bs : Bytes) (h : I.feed s b = some (s', [])) :
    I.run s (b :: bs) = I.run s' bs := by
  rw [run_cons I s s' b [] bs h]
  cases I.run s' bs <;> rfl

/-- the machine for stored blocks -/
def srun (s : Stored) (bs : Bytes) : Option (Stored × Bytes) := storedInflater.run s bs

theorem run_data (f : Bool) : ∀ (x : Bytes) (n : Nat), x.length = n + 1 → srun (.data f n) x = some (Stored.next f, x)
  | [], n, h => by simp at h
  | [b], n, h => by
    have : n = 0 := by simpa using h
    subst this
    rfl
  | b :: c :: x, n, h => by
    obtain ⟨m, rfl⟩ : ∃ m, n = m + 1 := ⟨x.length, by simp at h; omega⟩
    have ih := run_data f (c :: x) m (by simp at h ⊢; omega)
    have := run_cons storedInflater (.data f (m + 1)) (.data f m) b [b] (c :: x) rfl
    rw [srun, this]
    change Option.map _ (srun (.data f m) (c :: x)) = _
    rw [ih]
    rfl

/-- the state after the header of a block of `n` bytes -/
def Stored.after (f : Bool) (n : Nat) : Stored := if n = 0 then Stored.next f else .data f (n - 1)

theorem run_header (f : Bool) (n : Nat) (y : Bytes) (h : n ≤ 65535) :
    srun .head ((if f then 1 else 0) :: (leBytes 2 n ++ leBytes 2 (65535 - n) ++ y)) = srun (Stored.after f n) y := by
  have l1 : leNat (leBytes 2 n) = n := leNat_leBytes 2 _ (by omega)
  have l2 : leNat (leBytes 2 (65535 - n)) = 65535 - n := leNat_leBytes 2 _ (by omega)
  rw [show leBytes 2 n = [UInt8.ofNat (n % 256), UInt8.ofNat (n / 256 % 256)] from rfl] at l1 ⊢
  rw [show leBytes 2 (65535 - n) = [UInt8.ofNat ((65535 - n) % 256), UInt8.ofNat ((65535 - n) / 256 % 256)] from rfl] at l2 ⊢
  generalize UInt8.ofNat (n % 256) = a at *
  generalize UInt8.ofNat (n / 256 % 256) = b at *
  generalize UInt8.ofNat ((65535 - n) % 256) = c at *
  generalize UInt8.ofNat ((65535 - n) / 256 % 256) = d at *
  have h0 : storedInflater.feed Stored.head (if f then 1 else 0) = some (.len f [], []) := by cases f <;> rfl
  have h1 : storedInflater.feed (Stored.len f []) a = some (.len f [a], []) := rfl
  have h2 : storedInflater.feed (Stored.len f [a]) b = some (.len f [a, b], []) := rfl
  have h3 : storedInflater.feed (Stored.len f [a, b]) c = some (.len f [a, b, c], []) := rfl
  have h4 : storedInflater.feed (Stored.len f [a, b, c]) d = some (Stored.after f n, []) := by
    show (if leNat [c, d] = 65535 - leNat [a, b] then
      some (if leNat [a, b] = 0 then Stored.next f else Stored.data f (leNat [a, b] - 1), ([] : Bytes)) else none) = _
    rw [l1, l2, if_pos rfl, Stored.after]
  show storedInflater.run Stored.head (_ :: a :: b :: c :: d :: y) = _
  rw [run_cons_silent _ _ _ _ _ h0, run_cons_silent _ _ _ _ _ h1, run_cons_silent _ _ _ _ _ h2, run_cons_silent _ _ _ _ _ h3,
    run_cons_silent _ _ _ _ _ h4]
  rfl

theorem run_block (f : Bool) (x : Bytes) (h : x.length ≤ 65535) : srun .head (block f x) = some (Stored.next f, x) := by
  rw [block, run_header f x.length x h, Stored.after]
  by_cases h0 : x.length = 0
  · rw [if_pos h0]
    have : x = [] := List.length_eq_zero_iff.mp h0
    subst this
    rfl
  · rw [if_neg h0]
    exact run_data f x _ (by omega)

/-- `n` empty blocks -/
def empties : Nat → Bytes
  | 0 => []
  | n + 1 => block false [] ++ empties n

theorem empties_length (n : Nat) : (empties n).length = 5 * n := by
  induction n with
  | zero => rfl
  | succ n ih =>
    rw [empties, List.length_append, ih]
    have : (block false []).length = 5 := rfl
    omega

theorem run_empties (n : Nat) (y : Bytes) : srun .head (empties n ++ y) = srun .head y := by
  induction n with
  | zero => rfl
  | succ n ih =>
    rw [empties, List.append_assoc, ← ih, block, List.cons_append, List.append_assoc, List.nil_append]
    exact run_header false 0 _ (by omega)

theorem run_prefix_silent (I : Inflater) (s s' : I.σ) (a b : Bytes) (h : I.run s (a ++ b) = some (s', [])) :
    ∃ s1, I.run s a = some (s1, []) := by
  rw [run_append] at h
  cases h1 : I.run s a with
  | none => rw [h1] at h; cases h
  | some p =>
    rw [h1] at h
    simp only at h
    cases h2 : I.run p.1 b with
    | none => rw [h2] at h; cases h
    | some q =>
      rw [h2] at h
      simp only [Option.some.injEq, Prod.mk.injEq] at h
      have := (List.append_eq_nil_iff.mp h.2).1
      exact ⟨p.1, by rw [← this]⟩

/-- **C08 is false of the code.**  A valid stream that begins with 8192 bytes of empty blocks and goes on with any text `x`: a one-shot inflate
gives `x`, the file that is written is empty, and no error is reported. -/
theorem C08_silent_portion_loses (x : Bytes) (hx : x ≠ []) (hl : x.length ≤ 65535) (n : Nat) (hn : 8192 ≤ 5 * n) :
    oneShot storedInflater (empties n ++ block true x) = some x ∧
      decompressFile storedInflater (empties n ++ block true x) = some [] := by
  have h1 : oneShot storedInflater (empties n ++ block true x) = some x := by
    show (srun .head (empties n ++ block true x)).map (·.2) = some x
    rw [run_empties, run_block true x hl]
    rfl
  refine ⟨h1, ?_⟩
  have he : srun .head (empties n) = some (.head, []) := by
    have := run_empties n []
    rw [List.append_nil] at this
    rw [this]; rfl
  have hne : empties n ++ block true x ≠ [] := by
    intro h
    have := congrArg List.length h
    rw [List.length_append, empties_length] at this
    simp only [List.length_nil] at this
    omega
  have ht : (empties n ++ block true x).take 8192 = (empties n).take 8192 :=
    List.take_append_of_le_length (by rw [empties_length]; exact hn)
  obtain ⟨s1, hs⟩ := run_prefix_silent storedInflater Stored.head Stored.head ((empties n).take 8192) ((empties n).drop 8192)
    (by rw [List.take_append_drop]; exact he)
  rw [decompressFile, loop_step storedInflater 8192 (by omega) _ _ hne, ht]
  have hs' : storedInflater.run storedInflater.init ((empties n).take 8192) = some (s1, []) := hs
  rw [hs']
  simp

theorem run_data_partial (f : Bool) : ∀ (x : Bytes) (n : Nat), x.length ≤ n → srun (.data f n) x = some (.data f (n - x.length), x)
  | [], n, _ => rfl
  | b :: x, n, h => by
    obtain ⟨m, rfl⟩ : ∃ m, n = m + 1 := ⟨n - 1, by simp at h; omega⟩
    have ih := run_data_partial f x m (by simp at h; omega)
    have := run_cons storedInflater (.data f (m + 1)) (.data f m) b [b] x rfl
    rw [srun, this]
    change Option.map _ (srun (.data f m) x) = _
    rw [ih]
    simp only [Option.map_some, List.length_cons, Nat.add_sub_add_right]
    rfl

theorem run_data_loud (f : Bool) (n : Nat) (y o : Bytes) (s : Stored) (hy : y ≠ []) (h : srun (.data f n) y = some (s, o)) : o ≠ [] := by
  cases y with
  | nil => exact absurd rfl hy
  | cons b y =>
    have e : ∃ s1, storedInflater.feed (.data f n) b = some (s1, [b]) := by
      cases n with
      | zero => exact ⟨_, rfl⟩
      | succ n => exact ⟨_, rfl⟩
    obtain ⟨s1, e⟩ := e
    rw [srun, run_cons storedInflater _ _ b [b] y e] at h
    cases hr : storedInflater.run s1 y with
    | none => rw [hr] at h; cases h
    | some q => rw [hr] at h; cases h; simp

theorem block_take (f : Bool) (x : Bytes) (j : Nat) : (block f x).take (j + 5) =
    (if f then 1 else 0) :: (leBytes 2 x.length ++ leBytes 2 (65535 - x.length) ++ x.take j) := by
  rw [block]
  simp [leBytes]

theorem block_drop (f : Bool) (x : Bytes) (j : Nat) : (block f x).drop (j + 5) = x.drop j := by
  rw [block]
  simp [leBytes]

/-- no portion of a stored block of any text is silent -/
theorem stored_loud (x : Bytes) (h0 : x ≠ []) (hl : x.length ≤ 65535) (k : Nat) : ¬ SilentPortion storedInflater 8192 k (block true x) := by
  rintro ⟨hk, s, s', o, ha, hb⟩
  have hp := List.length_pos_iff.mpr h0
  have hlen : (block true x).length = 5 + x.length := by
    rw [block]; simp [leBytes]; omega
  cases k with
  | zero =>
    rw [Nat.zero_mul, List.take_zero] at ha
    cases ha
    rw [Nat.zero_mul, List.drop_zero, show (8192 : Nat) = 8187 + 5 from rfl, block_take] at hb
    have hb' : srun .head _ = _ := hb
    rw [run_header true _ _ hl, Stored.after, if_neg (by omega)] at hb'
    refine absurd rfl (run_data_loud true _ _ _ _ ?_ hb')
    intro h
    have := congrArg List.length h
    rw [List.length_take, List.length_nil] at this
    omega
  | succ k =>
    obtain ⟨j, hj⟩ : ∃ j, (k + 1) * 8192 = j + 5 := ⟨(k + 1) * 8192 - 5, by omega⟩
    rw [hj, block_take] at ha
    rw [hj, block_drop] at hb
    rw [hj, hlen] at hk
    have ha' : srun .head _ = _ := ha
    rw [run_header true _ _ hl, Stored.after, if_neg (by omega), run_data_partial true _ _ (by rw [List.length_take]; omega)] at ha'
    cases ha'
    refine absurd rfl (run_data_loud true _ _ _ _ ?_ hb)
    intro h
    have := congrArg List.length h
    rw [List.length_take, List.length_drop, List.length_nil] at this
    omega

theorem stored_once (x : Bytes) (hl : x.length ≤ 65535) : oneShot storedInflater (block true x) = some x := by
  show (srun .head (block true x)).map (·.2) = some x
  rw [run_block true x hl]; rfl

/-! ### compression -/

/-- the compressor does not care how its input is cut: what a `compressobj` promises as long as it is not flushed -/
def Deflater.Seamless (D : Deflater) : Prop :=
  ∀ (s : D.σ) (a b : Bytes), (D.compress (D.compress s a).1 b).1 = (D.compress s (a ++ b)).1 ∧
    (D.compress s a).2 ++ (D.compress (D.compress s a).1 b).2 = (D.compress s (a ++ b)).2

/-- compressing at once: `c.compress(src) + c.flush()` -/
def deflateOnce (D : Deflater) (src : Bytes) : Bytes := (D.compress D.init src).2 ++ D.flush (D.compress D.init src).1

theorem copyLoop_eq (n : Nat) (hn : 0 < n) : ∀ (m : Nat) (dest rest : Bytes), rest.length ≤ m → copyLoop n dest rest = dest ++ rest := by
  intro m
  induction m with
  | zero =>
    intro dest rest h
    have h0 : rest = [] := List.length_eq_zero_iff.mp (by omega)
    subst h0
    rw [copyLoop, dif_pos (Or.inl rfl), List.append_nil]
  | succ m ih =>
    intro dest rest h
    by_cases hr : rest = []
    · subst hr; rw [copyLoop, dif_pos (Or.inl rfl), List.append_nil]
    · have := List.length_pos_iff.mpr hr
      rw [copyLoop, dif_neg (by simp [hr]; omega), ih _ _ (by rw [List.length_drop]; omega), List.append_assoc, List.take_append_drop]

theorem deflateLoop_eq (D : Deflater) (hD : D.Seamless) (n : Nat) (hn : 0 < n) : ∀ (m : Nat) (s : D.σ) (rest : Bytes), rest.length ≤ m →
    rest ≠ [] → deflateLoop D n s rest = (D.compress s rest).2 ++ D.flush (D.compress s rest).1 := by
  intro m
  induction m with
  | zero =>
    intro s rest h hr
    exact absurd (List.length_eq_zero_iff.mp (by omega)) hr
  | succ m ih =>
    intro s rest h hr
    have := List.length_pos_iff.mpr hr
    rw [deflateLoop, dif_neg (by simp [hr]; omega)]
    by_cases hd : rest.drop n = []
    · rw [hd, deflateLoop, dif_pos (Or.inl rfl)]
      have : rest.take n = rest := by
        rw [List.drop_eq_nil_iff] at hd
        exact List.take_of_length_le hd
      rw [this]
    · rw [ih _ _ (by rw [List.length_drop]; omega) hd]
      obtain ⟨h1, h2⟩ := hD s (rest.take n) (rest.drop n)
      rw [List.take_append_drop] at h1 h2
      rw [h1, ← List.append_assoc, h2]

/-- **C09, copying.**  Copying block data in portions copies exactly the data, whatever the size of the portions. -/
theorem C09_copy (n : Nat) (hn : 0 < n) (dest data : Bytes) : copyLoop n dest data = dest ++ data :=
  copyLoop_eq n hn data.length dest data (Nat.le_refl _)

/-- **C09, compression.**  With a compressor that does not care how its input is cut, the stored bytes are those of compressing the whole
content at once (for empty content: of the flush alone). -/
theorem C09_compress (D : Deflater) (hD : D.Seamless) (src : Bytes) (h : src ≠ []) : compressFile D src = deflateOnce D src := by
  rw [compressFile, C09_copy 512 (by omega), List.nil_append, deflateLoop_eq D hD 512 (by omega) src.length _ _ (Nat.le_refl _) h]
  rfl

/-- the empty content -/
theorem C09_compress_empty (D : Deflater) : compressFile D [] = D.flush D.init := by
  rw [compressFile, C09_copy 512 (by omega), List.nil_append, deflateLoop, dif_pos (Or.inl rfl)]

/-- the size of the portions does not matter -/
theorem C09_portion_size (D : Deflater) (hD : D.Seamless) (n m : Nat) (hn : 0 < n) (hm : 0 < m) (s : D.σ) (src : Bytes) :
    deflateLoop D n s src = deflateLoop D m s src := by
  by_cases h : src = []
  · subst h
    rw [deflateLoop, dif_pos (Or.inl rfl), deflateLoop, dif_pos (Or.inl rfl)]
  · rw [deflateLoop_eq D hD n hn src.length _ _ (Nat.le_refl _) h, deflateLoop_eq D hD m hm src.length _ _ (Nat.le_refl _) h]

/-- **C08 with C09: a file survives compression and decompression** with any pair of zlib functions that are inverse when called at once,
provided the stored stream has no silent portion. -/
theorem C08_C09_file_round_trip (I : Inflater) (D : Deflater) (hD : D.Seamless) (src : Bytes) (hsrc : src ≠ [])
    (inv : oneShot I (deflateOnce D src) = some src) (loud : ∀ k, ¬ SilentPortion I 8192 k (deflateOnce D src)) :
    decompressFile I (compressFile D src) = some src := by
  rw [C09_compress D hD src hsrc, C08_complete_partial I _ loud, inv]

/-- the mark of a container is seen in the first portion exactly if the file begins with it, when the first portion gives at least four bytes -/
theorem C08_container_mark (I : Inflater) (stored out w : Bytes) (s : I.σ) (h : oneShot I stored = some out)
    (hf : I.run I.init (stored.take 8192) = some (s, w)) (hw : 4 ≤ w.length) :
    looksLikeContainer I stored = true ↔ [0xFF, 0xFF, 0xFF, 0x7F] <+: out := by
  rw [oneShot] at h
  have e := run_append I (stored.take 8192) (stored.drop 8192) I.init
  rw [List.take_append_drop, hf] at e
  simp only at e
  cases h2 : I.run s (stored.drop 8192) with
  | none => rw [h2] at e; rw [e] at h; cases h
  | some q =>
    rw [h2] at e
    rw [e] at h
    simp only [Option.map_some, Option.some.injEq] at h
    rw [looksLikeContainer, hf, ← h]
    simp only [decide_eq_true_eq]
    constructor
    · intro ht
      refine ⟨w.drop 4 ++ q.2, ?_⟩
      rw [← ht, ← List.append_assoc, List.take_append_drop]
    · rintro ⟨t, ht⟩
      have := congrArg (List.take 4) ht
      rw [List.take_append_of_le_length hw] at this
      rw [← this]
      rfl

/-! ### concrete cases: a compressor and an inflater for stored blocks -/

theorem storedDeflater_seamless : storedDeflater.Seamless :=
  fun s a b => ⟨List.append_assoc s a b, rfl⟩

theorem storedDeflater_once (x : Bytes) : deflateOnce storedDeflater x = block true x := by
  show [] ++ block true ([] ++ x) = _
  rfl

/-- the hypotheses of the round trip are met by the stored-block functions: every text of 1 to 65535 bytes goes through the two loops unchanged,
in up to 128 portions of 512 bytes on one side and eight of 8192 on the other -/
example (x : Bytes) (h : x ≠ []) (hl : x.length ≤ 65535) : decompressFile storedInflater (compressFile storedDeflater x) = some x :=
  C08_C09_file_round_trip storedInflater storedDeflater storedDeflater_seamless x h
    (by rw [storedDeflater_once]; exact stored_once x hl) (by rw [storedDeflater_once]; exact stored_loud x h hl)

/-- the hypotheses of `C08_silent_portion_loses` -/
example : oneShot storedInflater (empties 1639 ++ block true [65, 66]) = some [65, 66] ∧
    decompressFile storedInflater (empties 1639 ++ block true [65, 66]) = some [] :=
  C08_silent_portion_loses [65, 66] (by decide) (by decide) 1639 (by decide)

example : decompressFile storedInflater [0, 2, 0, 0xFD, 0xFF, 65, 66, 1, 1, 0, 0xFE, 0xFF, 67] = some [65, 66, 67] := by decide +kernel

/-- a damaged stream (wrong complement) is reported -/
example : decompressFile storedInflater [1, 2, 0, 0xFD, 0xFE, 65, 66] = none := by decide +kernel

/-- a truncated one is not -/
example : decompressFile storedInflater [1, 2, 0, 0xFD, 0xFF, 65] = some [65] := by decide +kernel

end V8.Zlib
