/-
Byte level primitives shared by the container model.
Models the Python runtime services used by /repo/src/v8unpack/container.py and container_doc.py:
`file.seek/read/write`, `struct.pack/unpack`, `int(x, 16)`, `f'{v:02x}'`, `str.rjust`, `bytes.split`,
`str.encode('utf-16-le')`, `bytes.decode('utf-16')`.
-/
namespace V8

abbrev Bytes := List UInt8

/-- Exceptions the modelled code can end with (one constructor per Python exception class that matters). -/
inductive Err
  | struct      -- struct.error
  | value       -- ValueError (bad hex text, negative seek, closed file)
  | attr        -- AttributeError (use of a missing block)
  | buffer      -- BufferError('Container is empty')
  | io          -- IOError('Container is empty')
  | zeroDiv     -- ZeroDivisionError
  | unicode     -- UnicodeDecodeError
  | notImpl     -- NotImplementedError
  | notFound    -- FileNotFoundError
  | fuel        -- the model ran out of steps: the Python loop would still be running
deriving DecidableEq, Repr

deriving instance DecidableEq for Except

/-- `f.seek(off); f.read(n)` -/
def readAt (f : Bytes) (off n : Nat) : Bytes := (f.drop off).take n

/-- `f.seek(off); f.write(bs)` on a `w+b` file: overwrites, extends, zero-fills a gap. -/
def writeAt (f : Bytes) (off : Nat) (bs : Bytes) : Bytes :=
  if bs = [] then f
  else (f ++ List.replicate (off - f.length) 0).take off ++ bs ++ f.drop (off + bs.length)

/-- little endian unsigned `struct.pack` of width `w` (value assumed in range) -/
def leBytes : Nat → Nat → Bytes
  | 0, _ => []
  | w+1, n => UInt8.ofNat (n % 256) :: leBytes w (n / 256)

/-- little endian unsigned `struct.unpack` -/
def leNat : Bytes → Nat
  | [] => 0
  | b :: bs => b.toNat + 256 * leNat bs

/-- ASCII code of one lower-case hexadecimal digit -/
def hexDigit (n : Nat) : UInt8 := if n < 10 then UInt8.ofNat (48 + n) else UInt8.ofNat (87 + n)

/-- `f'{n:x}'` -/
def toHex (n : Nat) : Bytes :=
  if n < 16 then [hexDigit n] else toHex (n / 16) ++ [hexDigit (n % 16)]
termination_by n
decreasing_by omega

/-- `s.rjust(w, '0')` -/
def rjust (w : Nat) (s : Bytes) : Bytes := List.replicate (w - s.length) 48 ++ s

/-- `str.upper` on ASCII -/
def upperByte (b : UInt8) : UInt8 := if 97 ≤ b.toNat ∧ b.toNat ≤ 122 then UInt8.ofNat (b.toNat - 32) else b

/-- value of one hexadecimal digit, either case -/
def hexVal (b : UInt8) : Option Nat :=
  let n := b.toNat
  if 48 ≤ n ∧ n ≤ 57 then some (n - 48)
  else if 97 ≤ n ∧ n ≤ 102 then some (n - 87)
  else if 65 ≤ n ∧ n ≤ 70 then some (n - 55)
  else none

def parseHexAux : Nat → Bytes → Option Nat
  | acc, [] => some acc
  | acc, b :: bs => match hexVal b with
    | some d => parseHexAux (acc * 16 + d) bs
    | none => none

/-- `int(bytes, 16)`.  Simplification: Python also accepts surrounding blanks, a sign, a `0x` prefix and
single underscores between digits; the model rejects those texts (they never occur in block headers
written by 1C or by v8unpack). -/
def parseHex (b : Bytes) : Option Nat := if b = [] then none else parseHexAux 0 b

/-- `struct.pack('<w>s', s)`: truncates, or pads with NUL bytes on the right -/
def packS (w : Nat) (s : Bytes) : Bytes := s.take w ++ List.replicate (w - s.length) 0

/-- `bytes.split(pat)` with the piece read so far in `acc` (reversed) -/
def bsplitAux (pat : Bytes) (acc : Bytes) : Bytes → List Bytes
  | [] => [acc.reverse]
  | b :: bs =>
    if pat.isPrefixOf (b :: bs) then acc.reverse :: bsplitAux pat [] (bs.drop (pat.length - 1))
    else bsplitAux pat (b :: acc) bs
termination_by l => l.length
decreasing_by all_goals (simp; try omega)

/-- `bytes.split(pat)` (non-empty `pat`) -/
def bsplit (pat bs : Bytes) : List Bytes := bsplitAux pat [] bs

/-- UTF-16 code units of a character -/
def utf16Units (c : Char) : List Nat :=
  if c.toNat < 0x10000 then [c.toNat]
  else [0xD800 + (c.toNat - 0x10000) / 0x400, 0xDC00 + (c.toNat - 0x10000) % 0x400]

def le16 (u : Nat) : Bytes := [UInt8.ofNat (u % 256), UInt8.ofNat (u / 256)]

/-- `name.encode('utf-16-le')`; names are lists of Unicode scalar values (Python raises on lone surrogates) -/
def utf16le (name : List Char) : Bytes := (name.flatMap utf16Units).flatMap le16

/-- bytes to 16-bit units, little or big endian; odd length is an error (UnicodeDecodeError) -/
def bytesToUnits (le : Bool) : Bytes → Option (List Nat)
  | [] => some []
  | [_] => none
  | a :: b :: rest => match bytesToUnits le rest with
    | some us => some ((if le then a.toNat + 256 * b.toNat else b.toNat + 256 * a.toNat) :: us)
    | none => none

/-- units to characters; lone surrogates are an error -/
def unitsToChars : List Nat → Option (List Char)
  | [] => some []
  | u :: rest =>
    if u < 0xD800 ∨ 0xE000 ≤ u then
      match unitsToChars rest with
      | some cs => some (Char.ofNat u :: cs)
      | none => none
    else if u < 0xDC00 then
      match rest with
      | [] => none
      | v :: rest' =>
        if 0xDC00 ≤ v ∧ v < 0xE000 then
          match unitsToChars rest' with
          | some cs => some (Char.ofNat (0x10000 + (u - 0xD800) * 0x400 + (v - 0xDC00)) :: cs)
          | none => none
        else none
    else none

/-- `bytes.decode('utf-16')` on a little-endian machine: an initial byte order mark selects the byte order
and is dropped; without a mark the order is little-endian. -/
def utf16Decode (b : Bytes) : Option (List Char) :=
  match b with
  | 0xFF :: 0xFE :: rest => (bytesToUnits true rest).bind unitsToChars
  | 0xFE :: 0xFF :: rest => (bytesToUnits false rest).bind unitsToChars
  | _ => (bytesToUnits true b).bind unitsToChars

/-- `s.partition('\x00')[0]` -/
def untilNul (s : List Char) : List Char := s.takeWhile (· ≠ Char.ofNat 0)

end V8
