import Verif.Bytes
namespace V8

@[simp] theorem leBytes_length (w n : Nat) : (leBytes w n).length = w := by
  induction w generalizing n with
  | zero => rfl
  | succ w ih => simp [leBytes, ih]

theorem leNat_leBytes (w n : Nat) (h : n < 256 ^ w) : leNat (leBytes w n) = n := by
  induction w generalizing n with
  | zero => simp at h; simp [leBytes, leNat, h]
  | succ w ih =>
    have h1 : n / 256 < 256 ^ w := by
      apply Nat.div_lt_of_lt_mul; rw [Nat.pow_succ] at h; omega
    simp only [leBytes, leNat, ih _ h1]
    have : (UInt8.ofNat (n % 256)).toNat = n % 256 := by
      simp [UInt8.toNat_ofNat]
    rw [this]; omega

/-! hex -/

theorem hexVal_hexDigit : ∀ d < 16, hexVal (hexDigit d) = some d := by decide
theorem hexVal_upper_hexDigit : ∀ d < 16, hexVal (upperByte (hexDigit d)) = some d := by decide
theorem hexVal_zero : hexVal 48 = some 0 := by decide
theorem upper_zero : upperByte 48 = 48 := by decide

theorem parseHexAux_append (acc : Nat) (a b : Bytes) :
    parseHexAux acc (a ++ b) = (parseHexAux acc a).bind (fun x => parseHexAux x b) := by
  induction a generalizing acc with
  | nil => simp [parseHexAux]
  | cons x a ih =>
    simp only [List.cons_append, parseHexAux]
    cases hexVal x <;> simp [ih]

theorem parseHexAux_zeros (k : Nat) : parseHexAux 0 (List.replicate k 48) = some 0 := by
  induction k with
  | zero => rfl
  | succ k ih => simp [List.replicate_succ, parseHexAux, hexVal_zero, ih]

theorem parse_toHex (n : Nat) : parseHexAux 0 (toHex n) = some n := by
  induction n using Nat.strongRecOn with
  | _ n ih =>
    rw [toHex]
    split
    · rename_i h; simp [parseHexAux, hexVal_hexDigit n h]
    · rename_i h
      rw [parseHexAux_append, ih _ (by omega)]
      simp only [Option.bind_some, parseHexAux, hexVal_hexDigit _ (Nat.mod_lt n (by decide : 0 < 16))]
      congr 1; omega

theorem parse_toHex_upper (n : Nat) : parseHexAux 0 ((toHex n).map upperByte) = some n := by
  induction n using Nat.strongRecOn with
  | _ n ih =>
    rw [toHex]
    split
    · rename_i h; simp [parseHexAux, hexVal_upper_hexDigit n h]
    · rename_i h
      rw [List.map_append, parseHexAux_append, ih _ (by omega)]
      simp only [Option.bind_some, parseHexAux, List.map,
        hexVal_upper_hexDigit _ (Nat.mod_lt n (by decide : 0 < 16))]
      congr 1; omega

theorem toHex_length_le (w n : Nat) (hw : 0 < w) (h : n < 16 ^ w) : (toHex n).length ≤ w := by
  induction w generalizing n with
  | zero => omega
  | succ w ih =>
    rw [toHex]; split
    · simp
    · rename_i h16
      have h1 : n / 16 < 16 ^ w := by
        apply Nat.div_lt_of_lt_mul; rw [Nat.pow_succ] at h; omega
      have hw0 : 0 < w := by
        rcases w with _ | w
        · simp at h; omega
        · omega
      have := ih (n / 16) hw0 h1
      simp; omega

theorem toHex_length_pos (n : Nat) : 0 < (toHex n).length := by
  rw [toHex]; split <;> simp

/-! reading inside a concatenation -/

theorem readAt_append_right (p x : Bytes) (o n : Nat) (h : p.length ≤ o) :
    readAt (p ++ x) o n = readAt x (o - p.length) n := by
  unfold readAt
  rw [List.drop_append]
  simp [List.drop_eq_nil_of_le h]

theorem readAt_append_exact (p x : Bytes) (n : Nat) : readAt (p ++ x) p.length n = x.take n := by
  rw [readAt_append_right _ _ _ _ (Nat.le_refl _)]; simp [readAt]

theorem readAt_len (f : Bytes) (o n : Nat) : (readAt f o n).length = min n (f.length - o) := by
  simp [readAt]

/-- `bs` is stored in `f` at offset `o` -/
def StoredAt (f : Bytes) (o : Nat) (bs : Bytes) : Prop := ∃ p s, f = p ++ bs ++ s ∧ p.length = o

theorem StoredAt.read {f : Bytes} {o : Nat} {bs : Bytes} (h : StoredAt f o bs) : readAt f o bs.length = bs := by
  obtain ⟨p, s, rfl, rfl⟩ := h
  rw [List.append_assoc, readAt_append_exact]; simp

theorem StoredAt.left {f : Bytes} {o : Nat} {a b : Bytes} (h : StoredAt f o (a ++ b)) : StoredAt f o a := by
  obtain ⟨p, s, rfl, rfl⟩ := h
  exact ⟨p, b ++ s, by simp, rfl⟩

theorem StoredAt.right {f : Bytes} {o : Nat} {a b : Bytes} (h : StoredAt f o (a ++ b)) :
    StoredAt f (o + a.length) b := by
  obtain ⟨p, s, rfl, rfl⟩ := h
  exact ⟨p ++ a, s, by simp, by simp⟩

theorem StoredAt.append {f : Bytes} {o : Nat} {bs : Bytes} (h : StoredAt f o bs) (t : Bytes) :
    StoredAt (f ++ t) o bs := by
  obtain ⟨p, s, rfl, rfl⟩ := h
  exact ⟨p, s ++ t, by simp, rfl⟩

theorem StoredAt.read_le {f : Bytes} {o : Nat} {bs : Bytes} (h : StoredAt f o bs) (n : Nat) (hn : n ≤ bs.length) :
    readAt f o n = bs.take n := by
  obtain ⟨p, s, rfl, rfl⟩ := h
  rw [List.append_assoc, readAt_append_exact, List.take_append_of_le_length hn]

theorem StoredAt.le {f : Bytes} {o : Nat} {bs : Bytes} (h : StoredAt f o bs) : o + bs.length ≤ f.length := by
  obtain ⟨p, s, rfl, rfl⟩ := h
  simp

theorem storedAt_of_read {f : Bytes} {o : Nat} {bs : Bytes} (hl : o ≤ f.length)
    (h : readAt f o bs.length = bs) : StoredAt f o bs := by
  refine ⟨f.take o, f.drop (o + bs.length), ?_, by simp [hl]⟩
  unfold readAt at h
  conv => rhs; rw [← h]
  rw [List.append_assoc]
  have : (f.drop o).take bs.length ++ f.drop (o + bs.length) = f.drop o := by
    rw [← List.drop_drop]; exact List.take_append_drop _ _
  rw [h] at this ⊢
  rw [this, List.take_append_drop]

/-! bsplit -/

/-- scanning a piece without a match -/
theorem bsplitAux_skip (pat acc piece rest : Bytes)
    (h : ∀ k < piece.length, pat.isPrefixOf (piece.drop k ++ rest) = false) :
    bsplitAux pat acc (piece ++ rest) = bsplitAux pat (piece.reverse ++ acc) rest := by
  induction piece generalizing acc with
  | nil => simp
  | cons b piece ih =>
    have h0 := h 0 (by simp)
    simp only [List.drop_zero, List.cons_append] at h0
    rw [List.cons_append, bsplitAux, h0]
    simp only [Bool.false_eq_true, if_false]
    rw [ih]
    · simp
    · intro k hk
      have := h (k+1) (by simp; omega)
      simpa using this

theorem bsplitAux_match (pat acc rest : Bytes) (hp : pat ≠ []) :
    bsplitAux pat acc (pat ++ rest) = acc.reverse :: bsplitAux pat [] rest := by
  cases pat with
  | nil => exact absurd rfl hp
  | cons b pat =>
    have hpre : List.isPrefixOf (b :: pat) (b :: (pat ++ rest)) = true := by
      rw [List.isPrefixOf_iff_prefix]; exact List.prefix_append (b :: pat) rest
    rw [List.cons_append, bsplitAux, hpre]
    simp

/-! UTF-16 -/

theorem le16_units (u : Nat) (h : u < 65536) (rest : Bytes) :
    bytesToUnits true (le16 u ++ rest) = (bytesToUnits true rest).map (u :: ·) := by
  have h1 : (UInt8.ofNat (u % 256)).toNat = u % 256 := by simp [UInt8.toNat_ofNat]
  have h2 : (UInt8.ofNat (u / 256)).toNat = u / 256 := by
    rw [UInt8.toNat_ofNat']; apply Nat.mod_eq_of_lt; omega
  simp only [le16, List.cons_append, List.nil_append, bytesToUnits, h1, h2]
  cases bytesToUnits true rest <;> simp; omega

theorem units_le16 (us : List Nat) (h : ∀ u ∈ us, u < 65536) (rest : Bytes) :
    bytesToUnits true (us.flatMap le16 ++ rest) = (bytesToUnits true rest).map (us ++ ·) := by
  induction us with
  | nil => simp
  | cons u us ih =>
    rw [List.flatMap_cons, List.append_assoc, le16_units _ (h u (by simp)),
      ih (fun v hv => h v (by simp [hv]))]
    cases bytesToUnits true rest <;> simp

theorem char_valid (c : Char) : c.toNat < 0xD800 ∨ (0xDFFF < c.toNat ∧ c.toNat < 0x110000) := by
  have := c.valid
  exact this

theorem utf16Units_lt (c : Char) : ∀ u ∈ utf16Units c, u < 65536 := by
  intro u hu
  unfold utf16Units at hu
  have := char_valid c
  split at hu
  · simp at hu; omega
  · simp at hu; omega

theorem unitsToChars_append (c : Char) (rest : List Nat) :
    unitsToChars (utf16Units c ++ rest) = (unitsToChars rest).map (c :: ·) := by
  have hv := char_valid c
  unfold utf16Units
  split
  · rename_i h
    rw [List.cons_append, List.nil_append, unitsToChars.eq_def]
    simp only
    have : c.toNat < 0xD800 ∨ 0xE000 ≤ c.toNat := by omega
    rw [if_pos this, Char.ofNat_toNat]
    cases unitsToChars rest <;> rfl
  · rename_i h
    rw [List.cons_append, List.cons_append, List.nil_append, unitsToChars.eq_def]
    simp only
    rw [if_neg (by omega), if_pos (by omega), if_pos (by omega)]
    have e : 0x10000 + (0xD800 + (c.toNat - 0x10000) / 0x400 - 0xD800) * 0x400
        + (0xDC00 + (c.toNat - 0x10000) % 0x400 - 0xDC00) = c.toNat := by omega
    rw [e, Char.ofNat_toNat]
    cases unitsToChars rest <;> rfl

theorem unitsToChars_name (name : List Char) (rest : List Nat) :
    unitsToChars (name.flatMap utf16Units ++ rest) = (unitsToChars rest).map (name ++ ·) := by
  induction name with
  | nil => simp
  | cons c name ih =>
    rw [List.flatMap_cons, List.append_assoc, unitsToChars_append, ih]
    cases unitsToChars rest <;> simp

/-- A name that does not begin with a byte order mark (U+FEFF or U+FFFE). -/
def NoBom (name : List Char) : Prop := ∀ c, name.head? = some c → c.toNat ≠ 0xFEFF ∧ c.toNat ≠ 0xFFFE

instance (name : List Char) : Decidable (NoBom name) := by
  unfold NoBom
  cases h : name.head? with
  | none => exact .isTrue (by intro c hc; cases hc)
  | some d =>
    if h1 : d.toNat ≠ 0xFEFF ∧ d.toNat ≠ 0xFFFE then
      exact .isTrue (by intro c hc; cases hc; exact h1)
    else exact .isFalse (fun h => h1 (h d rfl))

theorem utf16Decode_noBom (b : Bytes) (h1 : ∀ r, b ≠ 0xFF :: 0xFE :: r) (h2 : ∀ r, b ≠ 0xFE :: 0xFF :: r) :
    utf16Decode b = (bytesToUnits true b).bind unitsToChars := by
  unfold utf16Decode
  split
  · exact absurd rfl (h1 _)
  · exact absurd rfl (h2 _)
  · rfl

theorem head_units (c : Char) : ∃ u t, utf16Units c = u :: t ∧ u < 65536 ∧ (u = 0xFEFF → c.toNat = 0xFEFF) ∧
    (u = 0xFFFE → c.toNat = 0xFFFE) := by
  have hv := char_valid c
  unfold utf16Units
  split
  · exact ⟨_, _, rfl, by omega, by omega, by omega⟩
  · exact ⟨_, _, rfl, by omega, by omega, by omega⟩

theorem utf16Decode_name (name : List Char) (h : NoBom name) :
    utf16Decode (utf16le name ++ [0, 0, 0, 0]) = some (name ++ [Char.ofNat 0, Char.ofNat 0]) := by
  have hgen : (bytesToUnits true (utf16le name ++ [0, 0, 0, 0])).bind unitsToChars
      = some (name ++ [Char.ofNat 0, Char.ofNat 0]) := by
    unfold utf16le
    rw [units_le16 _ (by
      intro u hu; rw [List.mem_flatMap] at hu
      obtain ⟨c, _, hc⟩ := hu; exact utf16Units_lt c u hc)]
    have : bytesToUnits true [0, 0, 0, 0] = some [0, 0] := by decide
    rw [this]
    simp only [Option.map_some, Option.bind_some]
    rw [unitsToChars_name]
    have : unitsToChars [0, 0] = some [Char.ofNat 0, Char.ofNat 0] := by decide
    rw [this]; rfl
  rw [utf16Decode_noBom, hgen]
  all_goals
    intro r hr
    cases name with
    | nil => simp [utf16le] at hr
    | cons c name =>
      obtain ⟨u, t, hu, hlt, hf, hg⟩ := head_units c
      have hc := h c rfl
      unfold utf16le at hr
      rw [List.flatMap_cons, hu, List.cons_append, List.flatMap_cons] at hr
      simp only [le16, List.cons_append, List.cons.injEq] at hr
      obtain ⟨e1, e2, _⟩ := hr
      have e1 := congrArg UInt8.toNat e1
      have e2 := congrArg UInt8.toNat e2
      simp only [UInt8.toNat_ofNat'] at e1 e2
      have e3 : u % 256 % 256 = u % 256 := by omega
      have e4 : u / 256 % 256 = u / 256 := by omega
      simp only [Nat.reducePow] at e1 e2
      rw [e3] at e1
      rw [e4] at e2
      simp at e1 e2
      first
        | exact hc.1 (hf (by omega))
        | exact hc.2 (hg (by omega))

theorem untilNul_name (name : List Char) (h : ∀ c ∈ name, c ≠ Char.ofNat 0) (t : List Char) :
    untilNul (name ++ Char.ofNat 0 :: t) = name := by
  unfold untilNul
  induction name with
  | nil => simp
  | cons c name ih =>
    have := h c (by simp)
    simp only [List.cons_append, List.takeWhile_cons]
    rw [ih (fun d hd => h d (by simp [hd]))]
    simp [this]

end V8
