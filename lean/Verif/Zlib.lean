import Verif.Bytes
/-
Model of the streaming loops around zlib.
/repo/src/v8unpack/container_reader.py:77-118 (decompress_file_and_extract), /repo/src/v8unpack/container_doc.py:165-188
(Document.compress, write_block_data), /repo/src/v8unpack/container_writer.py:84-88 (compress_and_build_simple_file).

zlib itself is a parameter: an inflater is a machine that is fed bytes, a deflater a machine with `compress` and `flush`.
-/
namespace V8.Zlib

/-- `zlib.decompressobj(-15)`: `feed` takes one byte and gives the output that becomes available with it; `none` is zlib.error;
`ended` is the attribute `eof` -/
structure Inflater where
  σ : Type
  init : σ
  feed : σ → UInt8 → Option (σ × Bytes)
  ended : σ → Bool

/-- `decompressor.decompress(buf)` without a limit: takes the whole of `buf` (so that `unconsumed_tail` is always empty) and returns all output
that is available -/
def Inflater.run (I : Inflater) : I.σ → Bytes → Option (I.σ × Bytes)
  | s, [] => some (s, [])
  | s, b :: bs => match I.feed s b with
    | none => none
    | some (s', o) => match I.run s' bs with
      | none => none
      | some (s'', o') => some (s'', o ++ o')

/-- the loop of decompress_file_and_extract: container_reader.py:88-101; `rest` is the part of the file not read yet; returns the bytes written to
the destination.  `decompressor.unconsumed_tail` is always empty (see `run`), so that every turn reads a portion of `n` = 8192 bytes. -/
def inflateLoop (I : Inflater) (n : Nat) (s : I.σ) (rest : Bytes) : Option Bytes :=
  if h : rest = [] ∨ n = 0 then some []
  else match I.run s (rest.take n) with
    | none => none
    | some (s', data) =>
      if data = [] then some []
      else (inflateLoop I n s' (rest.drop n)).map (data ++ ·)
termination_by rest.length
decreasing_by
  rw [not_or] at h
  have := List.length_pos_iff.mpr h.1
  rw [List.length_drop]
  omega

/-- the file that decompress_file_and_extract writes for a stored file: container_reader.py:77-101 (before the check whether it is a container) -/
def decompressFile (I : Inflater) (stored : Bytes) : Option Bytes := inflateLoop I 8192 I.init stored

/-- `data[0:4]` of the first portion is the mark of a container: container_reader.py:97-98 -/
def looksLikeContainer (I : Inflater) (stored : Bytes) : Bool := match I.run I.init (stored.take 8192) with
  | some (_, data) => decide (data.take 4 = [0xFF, 0xFF, 0xFF, 0x7F])
  | none => false

/-- `zlib.compressobj(wbits=-15)` -/
structure Deflater where
  σ : Type
  init : σ
  compress : σ → Bytes → σ × Bytes
  flush : σ → Bytes

/-- the loop of Document.compress: container_doc.py:167-175: the content of the temporary file -/
def deflateLoop (D : Deflater) (n : Nat) (s : D.σ) (rest : Bytes) : Bytes :=
  if h : rest = [] ∨ n = 0 then D.flush s
  else (D.compress s (rest.take n)).2 ++ deflateLoop D n (D.compress s (rest.take n)).1 (rest.drop n)
termination_by rest.length
decreasing_by
  rw [not_or] at h
  have := List.length_pos_iff.mpr h.1
  rw [List.length_drop]
  omega

/-- write_block_data: container_doc.py:180-187: `dest` is the destination up to its write position -/
def copyLoop (n : Nat) (dest rest : Bytes) : Bytes :=
  if h : rest = [] ∨ n = 0 then dest
  else copyLoop n (dest ++ rest.take n) (rest.drop n)
termination_by rest.length
decreasing_by
  rw [not_or] at h
  have := List.length_pos_iff.mpr h.1
  rw [List.length_drop]
  omega

/-- compress_and_build_simple_file: container_writer.py:84-88 with Document.compress: the stored file -/
def compressFile (D : Deflater) (src : Bytes) : Bytes := copyLoop 512 [] (deflateLoop D 512 D.init src)

/-! ### the part of DEFLATE with stored blocks only (RFC 1951, 3.2.4), as a concrete inflater -/

inductive Stored
  | head                                    -- at the header of a block
  | len (final : Bool) (got : Bytes)        -- reading LEN and NLEN, `got` of the four bytes are there
  | data (final : Bool) (left : Nat)        -- copying, `left + 1` bytes to go
  | fin                                     -- after the last block

def Stored.next (final : Bool) : Stored := if final then .fin else .head

/-- one byte: header (bit 0 final, bits 1 and 2 the kind, the rest padding), LEN, its complement, data -/
def Stored.step : Stored → UInt8 → Option (Stored × Bytes)
  | .head, b => if b.toNat / 2 % 4 = 0 then some (.len (decide (b.toNat % 2 = 1)) [], []) else none
  | .len f got, b =>
    if got.length < 3 then some (.len f (got ++ [b]), [])
    else
      let l := leNat (got.take 2)
      if leNat ((got ++ [b]).drop 2) = 65535 - l then some (if l = 0 then Stored.next f else .data f (l - 1), []) else none
  | .data f n, b => some (match n with
      | 0 => Stored.next f
      | n + 1 => .data f n, [b])
  | .fin, _ => some (.fin, [])

/-- the inflater for streams of stored blocks -/
def storedInflater : Inflater where
  σ := Stored
  init := .head
  feed := Stored.step
  ended := fun s => match s with | .fin => true | _ => false

/-- a stored block -/
def block (final : Bool) (x : Bytes) : Bytes :=
  (if final then 1 else 0) :: (leBytes 2 x.length ++ leBytes 2 (65535 - x.length) ++ x)

/-- a deflater that writes stored blocks: one block for the text collected so far -/
def storedDeflater : Deflater where
  σ := Bytes
  init := []
  compress := fun s x => (s ++ x, [])
  flush := fun s => block true s

end V8.Zlib
