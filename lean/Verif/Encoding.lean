import Verif.Bytes
import Verif.Text
/-
Character encodings used for module files: UTF-8 (encoder and strict decoder of Lean's library, which are the standard ones),
windows-1251 (table of the Unicode consortium, as in CPython's cp1251), byte order marks
(/repo/src/v8unpack/helper.py:300-314, detect_by_bom).
-/
namespace V8.Enc

/-- `text.encode('utf-8')` -/
noncomputable def utf8 (t : Text) : Bytes := t.utf8Encode.data.toList

/-- `bytes.decode('utf-8')`, strict; a byte order mark is the character U+FEFF -/
def utf8Text (b : Bytes) : Option Text := (ByteArray.utf8Decode? ⟨b.toArray⟩).map (·.toList)

theorem utf8Text_utf8 (t : Text) : utf8Text (utf8 t) = some t := by
  rw [utf8Text, utf8]
  have : (⟨t.utf8Encode.data.toList.toArray⟩ : ByteArray) = t.utf8Encode := by
    cases h : t.utf8Encode; simp
  rw [this, List.utf8Decode?_utf8Encode]
  simp

theorem utf8_utf8Text {b : Bytes} {t : Text} (h : utf8Text b = some t) : utf8 t = b := by
  rw [utf8Text] at h
  cases hd : ByteArray.utf8Decode? ⟨b.toArray⟩ with
  | none => rw [hd] at h; cases h
  | some a =>
    rw [hd] at h
    simp only [Option.map_some, Option.some.injEq] at h
    have h1 := ByteArray.utf8Encode_get_utf8Decode? (b := ⟨b.toArray⟩) (h := by rw [hd]; rfl)
    simp only [hd, Option.get_some] at h1
    rw [utf8, ← h, h1]

theorem utf8_append (a b : Text) : utf8 (a ++ b) = utf8 a ++ utf8 b := by
  simp [utf8, List.utf8Encode_append]

theorem utf8_inj {a b : Text} (h : utf8 a = utf8 b) : a = b := by
  have h1 := utf8Text_utf8 a
  rw [h, utf8Text_utf8] at h1
  exact (Option.some.inj h1).symm

/-- the byte order mark as a character -/
def bom : Char := '\uFEFF'

/-- the byte order mark in UTF-8 -/
def bom8 : Bytes := [0xEF, 0xBB, 0xBF]

theorem utf8_bom : utf8 [bom] = bom8 := by decide +kernel

/-- one byte order mark at the beginning is dropped -/
def dropBom (t : Text) : Text := if t.head? = some bom then t.drop 1 else t

/-- `bytes.decode('utf-8-sig')` -/
def utf8SigText (b : Bytes) : Option Text := (utf8Text b).map dropBom

/-- `text.encode('utf-8-sig')` -/
noncomputable def utf8Sig (t : Text) : Bytes := bom8 ++ utf8 t

/-- code points of the bytes 128..255 in windows-1251; 0 for the byte 0x98, which is not assigned -/
def cp1251Table : List Nat := [
   0x0402, 0x0403, 0x201A, 0x0453, 0x201E, 0x2026, 0x2020, 0x2021, 0x20AC, 0x2030, 0x0409, 0x2039, 0x040A, 0x040C, 0x040B, 0x040F,
   0x0452, 0x2018, 0x2019, 0x201C, 0x201D, 0x2022, 0x2013, 0x2014, 0x0000, 0x2122, 0x0459, 0x203A, 0x045A, 0x045C, 0x045B, 0x045F,
   0x00A0, 0x040E, 0x045E, 0x0408, 0x00A4, 0x0490, 0x00A6, 0x00A7, 0x0401, 0x00A9, 0x0404, 0x00AB, 0x00AC, 0x00AD, 0x00AE, 0x0407,
   0x00B0, 0x00B1, 0x0406, 0x0456, 0x0491, 0x00B5, 0x00B6, 0x00B7, 0x0451, 0x2116, 0x0454, 0x00BB, 0x0458, 0x0405, 0x0455, 0x0457,
   0x0410, 0x0411, 0x0412, 0x0413, 0x0414, 0x0415, 0x0416, 0x0417, 0x0418, 0x0419, 0x041A, 0x041B, 0x041C, 0x041D, 0x041E, 0x041F,
   0x0420, 0x0421, 0x0422, 0x0423, 0x0424, 0x0425, 0x0426, 0x0427, 0x0428, 0x0429, 0x042A, 0x042B, 0x042C, 0x042D, 0x042E, 0x042F,
   0x0430, 0x0431, 0x0432, 0x0433, 0x0434, 0x0435, 0x0436, 0x0437, 0x0438, 0x0439, 0x043A, 0x043B, 0x043C, 0x043D, 0x043E, 0x043F,
   0x0440, 0x0441, 0x0442, 0x0443, 0x0444, 0x0445, 0x0446, 0x0447, 0x0448, 0x0449, 0x044A, 0x044B, 0x044C, 0x044D, 0x044E, 0x044F]

/-- one byte of windows-1251 -/
def cpChar (b : UInt8) : Option Char :=
  if b.toNat < 128 then some (Char.ofNat b.toNat)
  else match cp1251Table[b.toNat - 128]? with
    | some 0 => none
    | some n => some (Char.ofNat n)
    | none => none

/-- one character in windows-1251 -/
def cpByte (c : Char) : Option UInt8 := ((List.range 256).map UInt8.ofNat).find? (fun b => cpChar b = some c)

/-- `bytes.decode('windows-1251')` -/
def cpText : Bytes → Option Text
  | [] => some []
  | b :: r => match cpChar b, cpText r with
    | some c, some t => some (c :: t)
    | _, _ => none

/-- `text.encode('windows-1251')` -/
def cpBytes : Text → Option Bytes
  | [] => some []
  | c :: r => match cpByte c, cpBytes r with
    | some b, some t => some (b :: t)
    | _, _ => none

set_option maxRecDepth 20000 in
theorem cp_table : ∀ n < 256, (match cpChar (UInt8.ofNat n) with
    | none => true
    | some c => decide (cpByte c = some (UInt8.ofNat n) ∧ c ≠ bom)) = true := by
  decide +kernel

theorem cpByte_cpChar {b : UInt8} {c : Char} (h : cpChar b = some c) : cpByte c = some b ∧ c ≠ bom := by
  have h1 := cp_table b.toNat b.toNat_lt
  rw [UInt8.ofNat_toNat, h] at h1
  simpa using h1

theorem cpBytes_cpText : ∀ {b : Bytes} {t : Text}, cpText b = some t → cpBytes t = some b ∧ bom ∉ t
  | [], t, h => by cases h; exact ⟨rfl, by simp⟩
  | x :: r, t, h => by
    rw [cpText] at h
    cases hc : cpChar x with
    | none => rw [hc] at h; cases h
    | some c =>
      cases hr : cpText r with
      | none => rw [hc, hr] at h; cases h
      | some u =>
        rw [hc, hr] at h
        cases h
        obtain ⟨h1, h2⟩ := cpBytes_cpText hr
        obtain ⟨h3, h4⟩ := cpByte_cpChar hc
        refine ⟨by rw [cpBytes, h3, h1], ?_⟩
        rw [List.mem_cons, not_or]
        exact ⟨h4.symm, h2⟩

/-- the encodings detect_by_bom can name -/
inductive Mark where
  | utf8sig | utf32 | utf16
deriving DecidableEq, Repr

/-- the table of detect_by_bom, in its order: helper.py:301-307 -/
def boms : List (Mark × Bytes) :=
  [(.utf8sig, [0xEF, 0xBB, 0xBF]), (.utf32, [0xFF, 0xFE, 0, 0]), (.utf32, [0, 0, 0xFE, 0xFF]), (.utf16, [0xFF, 0xFE]),
   (.utf16, [0xFE, 0xFF])]

/-- detect_by_bom: helper.py:300-314; `none` is the default -/
def detectByBom (file : Bytes) : Option Mark :=
  (boms.find? (fun p => p.2.isPrefixOf (file.take 4))).map (·.1)

theorem utf8_prefix_free {c d : Char} {x y : Bytes} (h : utf8 [c] ++ x = utf8 [d] ++ y) : c = d := by
  have key : ∀ (c : Char) (x : Bytes), (⟨(utf8 [c] ++ x).toArray⟩ : ByteArray).utf8DecodeChar? 0 = some c := by
    intro c x
    have e : (⟨(utf8 [c] ++ x).toArray⟩ : ByteArray) = [c].utf8Encode ++ ⟨x.toArray⟩ := by
      ext1
      simp [utf8]
    rw [e, List.utf8DecodeChar?_utf8Encode_singleton_append]
  have h1 := key c x
  rw [h, key d y] at h1
  exact (Option.some.inj h1).symm

theorem utf8_cons (c : Char) (t : Text) : utf8 (c :: t) = utf8 [c] ++ utf8 t := by
  rw [← utf8_append]; rfl

theorem utf8_nil : utf8 [] = [] := rfl

theorem utf8_single (c : Char) : utf8 [c] = String.utf8EncodeChar c := by
  simp [utf8, List.utf8Encode]

/-- no byte of UTF-8 text is FE or FF -/
theorem utf8_lt (t : Text) : ∀ b ∈ utf8 t, b.toNat < 0xF8 := by
  induction t with
  | nil => simp [utf8_nil]
  | cons c t ih =>
    rw [utf8_cons]
    intro b hb
    rcases List.mem_append.mp hb with hb | hb
    · rw [utf8_single] at hb
      unfold String.utf8EncodeChar at hb
      simp only at hb
      split at hb
      · rename_i h
        simp only [List.mem_singleton] at hb
        rw [hb, UInt8.toNat_ofNat']; omega
      · split at hb
        · simp only [List.mem_cons, List.not_mem_nil, or_false] at hb
          rcases hb with rfl | rfl <;> rw [UInt8.toNat_ofNat'] <;> omega
        · split at hb
          · simp only [List.mem_cons, List.not_mem_nil, or_false] at hb
            rcases hb with rfl | rfl | rfl <;> rw [UInt8.toNat_ofNat'] <;> omega
          · simp only [List.mem_cons, List.not_mem_nil, or_false] at hb
            rcases hb with rfl | rfl | rfl | rfl <;> rw [UInt8.toNat_ofNat'] <;> omega
    · exact ih b hb

theorem detect_iff (file : Bytes) (p : Bytes) (hp : p.length ≤ 4) : p.isPrefixOf (file.take 4) = true ↔ p <+: file := by
  rw [List.isPrefixOf_iff_prefix]
  constructor
  · exact fun h => h.trans (List.take_prefix 4 file)
  · rintro ⟨r, rfl⟩
    rw [List.take_append, List.take_of_length_le hp]
    exact List.prefix_append _ _

/-- exactly what detect_by_bom answers -/
theorem detectByBom_eq (file : Bytes) : detectByBom file =
    if [0xEF, 0xBB, 0xBF] <+: file then some .utf8sig
    else if [0xFF, 0xFE, 0, 0] <+: file ∨ [0, 0, 0xFE, 0xFF] <+: file then some .utf32
    else if [0xFF, 0xFE] <+: file ∨ [0xFE, 0xFF] <+: file then some .utf16
    else none := by
  unfold detectByBom boms
  have e : ∀ p : Bytes, p.length ≤ 4 → (p.isPrefixOf (file.take 4) = decide (p <+: file)) := by
    intro p hp
    rw [Bool.eq_iff_iff, detect_iff file p hp, decide_eq_true_iff]
  simp only [List.find?_cons, List.find?_nil]
  rw [e _ (by decide), e _ (by decide), e _ (by decide), e _ (by decide), e _ (by decide)]
  by_cases h1 : [0xEF, 0xBB, 0xBF] <+: file
  · simp [h1]
  · by_cases h2 : [0xFF, 0xFE, 0, 0] <+: file
    · simp [h1, h2]
    · by_cases h3 : [0, 0, 0xFE, 0xFF] <+: file
      · simp [h1, h2, h3]
      · by_cases h4 : [0xFF, 0xFE] <+: file
        · simp [h1, h2, h3, h4]
        · by_cases h5 : [0xFE, 0xFF] <+: file
          · simp [h1, h2, h3, h4, h5]
          · simp [h1, h2, h3, h4, h5]

theorem bom_prefix (t : Text) : bom8 <+: utf8 t ↔ t.head? = some bom := by
  cases t with
  | nil => simp [utf8_nil, bom8]
  | cons c t =>
    rw [utf8_cons, ← utf8_bom]
    simp only [List.head?_cons, Option.some.injEq]
    constructor
    · rintro ⟨r, hr⟩
      exact (utf8_prefix_free hr).symm
    · rintro rfl
      exact List.prefix_append _ _

/-- on a file with UTF-8 text the answer is utf-8-sig or nothing -/
theorem detectByBom_utf8 (t : Text) : detectByBom (utf8 t) = if t.head? = some bom then some .utf8sig else none := by
  rw [detectByBom_eq]
  have no : ∀ p : Bytes, (∃ b ∈ p, 0xF8 ≤ b.toNat) → ¬ p <+: utf8 t := by
    rintro p ⟨b, hb, hge⟩ hp
    have := utf8_lt t b (hp.subset hb)
    omega
  by_cases h : t.head? = some bom
  · rw [if_pos (show [0xEF, 0xBB, 0xBF] <+: utf8 t from (bom_prefix t).mpr h), if_pos h]
  · rw [if_neg (show ¬ [0xEF, 0xBB, 0xBF] <+: utf8 t from fun hp => h ((bom_prefix t).mp hp)), if_neg, if_neg, if_neg h]
    · rintro (hp | hp)
      · exact no _ (by decide) hp
      · exact no _ (by decide) hp
    · rintro (hp | hp)
      · exact no _ (by decide) hp
      · exact no _ (by decide) hp

theorem utf8SigText_utf8 (t : Text) : utf8SigText (utf8 t) = some (dropBom t) := by
  rw [utf8SigText, utf8Text_utf8]
  rfl

end V8.Enc
