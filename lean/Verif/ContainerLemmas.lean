import Verif.Container
import Verif.BytesLemmas
namespace V8

/-! ### block headers -/

theorem packS_length (w : Nat) (s : Bytes) : (packS w s).length = w := by
  simp [packS]; omega

theorem int2hex_length (fm : Fmt) (v : Nat) (hw : 2 ≤ fm.hexW) (h : v < 16 ^ fm.hexW) :
    (fm.int2hex v).length = fm.hexW := by
  have h1 := toHex_length_le fm.hexW v (by omega) h
  unfold Fmt.int2hex rjust
  split <;> simp <;> omega

theorem replicate_map_upper (k : Nat) : (List.replicate k (48:UInt8)).map upperByte = List.replicate k 48 := by
  simp [upper_zero]

theorem parse_int2hex (fm : Fmt) (v : Nat) : parseHexAux 0 (fm.int2hex v) = some v := by
  unfold Fmt.int2hex rjust
  split
  · simp only [List.map_append, replicate_map_upper, parseHexAux_append, parseHexAux_zeros,
      Option.bind_some, parse_toHex_upper]
  · simp only [parseHexAux_append, parseHexAux_zeros, Option.bind_some, parse_toHex]

theorem packS_int2hex (fm : Fmt) (v : Nat) (hw : 2 ≤ fm.hexW) (h : v < 16 ^ fm.hexW) :
    packS fm.hexW (fm.int2hex v) = fm.int2hex v := by
  have := int2hex_length fm v hw h
  unfold packS
  rw [this, List.take_of_length_le (by omega)]
  simp

theorem hexField (fm : Fmt) (v : Nat) (hw : 2 ≤ fm.hexW) (h : v < 16 ^ fm.hexW) :
    parseHex (packS fm.hexW (fm.int2hex v)) = some v := by
  rw [packS_int2hex fm v hw h]
  unfold parseHex
  have := int2hex_length fm v hw h
  rw [if_neg, parse_int2hex]
  intro hc; rw [hc] at this; simp at this; omega

theorem blockHdr_length (fm : Fmt) (d b n : Nat) : (fm.blockHdr d b n).length = fm.blockHeader := by
  simp [Fmt.blockHdr, packS_length, Fmt.blockHeader]; omega

theorem blockHdr_field1 (fm : Fmt) (d b n : Nat) :
    readAt (fm.blockHdr d b n) 2 fm.hexW = packS fm.hexW (fm.int2hex d) := by
  have h : StoredAt (fm.blockHdr d b n) 2 (packS fm.hexW (fm.int2hex d)) :=
    ⟨[13, 10], [32] ++ packS fm.hexW (fm.int2hex b) ++ [32] ++
      packS fm.hexW (fm.int2hex n) ++ [32] ++ [13, 10], by simp [Fmt.blockHdr], rfl⟩
  have := h.read
  rwa [packS_length] at this

theorem blockHdr_field2 (fm : Fmt) (d b n : Nat) :
    readAt (fm.blockHdr d b n) (fm.hexW + 3) fm.hexW = packS fm.hexW (fm.int2hex b) := by
  have h : StoredAt (fm.blockHdr d b n) (fm.hexW + 3) (packS fm.hexW (fm.int2hex b)) :=
    ⟨[13, 10] ++ packS fm.hexW (fm.int2hex d) ++ [32], [32] ++
      packS fm.hexW (fm.int2hex n) ++ [32] ++ [13, 10], by simp [Fmt.blockHdr], by
        simp [packS_length]⟩
  have := h.read
  rwa [packS_length] at this

theorem blockHdr_field3 (fm : Fmt) (d b n : Nat) :
    readAt (fm.blockHdr d b n) (2 * fm.hexW + 4) fm.hexW = packS fm.hexW (fm.int2hex n) := by
  have h : StoredAt (fm.blockHdr d b n) (2 * fm.hexW + 4) (packS fm.hexW (fm.int2hex n)) :=
    ⟨[13, 10] ++ packS fm.hexW (fm.int2hex d) ++ [32] ++ packS fm.hexW (fm.int2hex b) ++ [32],
      [32] ++ [13, 10], by simp [Fmt.blockHdr], by
        simp [packS_length]; omega⟩
  have := h.read
  rwa [packS_length] at this

/-- what read_block returns on a stored block -/
theorem readBlock_stored (fm : Fmt) (hw : 2 ≤ fm.hexW) (f : Bytes) (coff off : Int) (o : Nat)
    (ho : off + coff = o) (d b n : Nat) (payload : Bytes)
    (hs : StoredAt f o (fm.blockHdr d b n ++ payload))
    (hd : d < 16 ^ fm.hexW) (hb : b < 16 ^ fm.hexW) (hn : n < 16 ^ fm.hexW)
    (mx : Option Nat)
    (hm : min b (effMax mx b d) ≤ payload.length) :
    readBlock fm f coff off mx =
      .ok (some ⟨d, b, n, payload.take (min b (effMax mx b d))⟩) := by
  unfold readBlock
  have h1 : readAt f o fm.blockHeader = fm.blockHdr d b n := by
    have := hs.left.read
    rwa [blockHdr_length] at this
  have h2 := hs.right
  rw [blockHdr_length] at h2
  simp only [ho]
  rw [if_neg (by omega)]
  simp only [Int.toNat_natCast, h1]
  have hne : fm.blockHdr d b n ≠ [] := by
    intro hc
    have := blockHdr_length fm d b n
    rw [hc] at this; simp [Fmt.blockHeader] at this
  rw [if_neg hne, if_neg (by simp [blockHdr_length]), blockHdr_field1, blockHdr_field2, blockHdr_field3,
    hexField fm d hw hd, hexField fm b hw hb, hexField fm n hw hn]
  simp only
  rw [h2.read_le _ hm]

/-- A chain of blocks starting at `next`: each stored block has payload of exactly its declared block size
(data plus padding) and points to the next; the last one points to the end marker. -/
inductive ChainAt (fm : Fmt) (f : Bytes) (coff : Int) : Nat → List Bytes → Prop
  | nil : ChainAt fm f coff fm.marker []
  | cons (next o d n' : Nat) (payload : Bytes) (rest : List Bytes)
      (hne : next ≠ fm.marker) (ho : (next : Int) + coff = o)
      (hs : StoredAt f o (fm.blockHdr d payload.length n' ++ payload))
      (hd : d < 16 ^ fm.hexW) (hb : payload.length < 16 ^ fm.hexW) (hn : n' < 16 ^ fm.hexW)
      (ht : ChainAt fm f coff n' rest) : ChainAt fm f coff next (payload :: rest)

theorem readChain_chain (fm : Fmt) (hw : 2 ≤ fm.hexW) (f : Bytes) (coff : Int) (next : Nat) (ps : List Bytes)
    (h : ChainAt fm f coff next ps) (fuel left : Nat) (hf : ps.length ≤ fuel) :
    readChain fm f coff fuel left next = .ok (ps.flatten.take left) := by
  induction h generalizing fuel left with
  | nil => cases fuel <;> simp [readChain]
  | cons next o d n' payload rest hne ho hs hd hb hn _ ih =>
    obtain _ | fuel := fuel
    · simp at hf
    · rw [readChain]
      by_cases hl : left = 0
      · subst hl; simp
      · rw [if_pos ⟨by omega, hne⟩,
          readBlock_stored fm hw f coff next o ho d _ n' payload hs hd hb hn (some left) (by simp [effMax]; omega)]
        simp only [effMax]
        rw [ih fuel _ (by simpa using hf)]
        simp only [List.length_take, List.flatten_cons, List.take_append]
        congr 2
        · rw [← List.take_take]; exact List.take_of_length_le (by simp; omega)
        · congr 1; omega

/-- reading a document: the first block holds `payload`, the rest of the chain `ps` -/
theorem readDoc_chain (fm : Fmt) (hw : 2 ≤ fm.hexW) (f : Bytes) (coff off : Int) (o d n' : Nat) (payload : Bytes)
    (ps : List Bytes) (ho : off + coff = o)
    (hs : StoredAt f o (fm.blockHdr d payload.length n' ++ payload))
    (hd : d < 16 ^ fm.hexW) (hb : payload.length < 16 ^ fm.hexW) (hn : n' < 16 ^ fm.hexW)
    (ht : ChainAt fm f coff n' ps) (fuel : Nat) (hf : ps.length ≤ fuel) (minBlock full : Int)
    (hfull : fullSize fm d payload.length minBlock = .ok full) :
    readDoc fm fuel f coff off minBlock = .ok ⟨full, d, (payload ++ ps.flatten).take d⟩ := by
  unfold readDoc
  rw [readBlock_stored fm hw f coff off o ho d _ n' payload hs hd hb hn none (by simp [effMax]; omega)]
  simp only [hfull, effMax]
  rw [readChain_chain fm hw f coff n' ps ht fuel _ hf]
  simp only
  congr 2
  rw [List.take_append]
  congr 1
  · have : min payload.length (min payload.length d) = min d payload.length := by omega
    rw [this, ← List.take_take]; simp
  · simp only [List.length_take]; congr 1; omega

/-! ### writing -/

theorem writeAt_end (f b : Bytes) : writeAt f f.length b = f ++ b := by
  unfold writeAt
  split
  · simp_all
  · simp

theorem writeAt_inside (f b : Bytes) (o : Nat) (h : o ≤ f.length) :
    writeAt f o b = f.take o ++ b ++ f.drop (o + b.length) := by
  unfold writeAt
  split
  · subst_vars; simp
  · have : o - f.length = 0 := by omega
    simp [this]

theorem writeAt_writeAt (f a b : Bytes) (o : Nat) (h : o ≤ f.length) :
    writeAt (writeAt f o a) (o + a.length) b = writeAt f o (a ++ b) := by
  rw [writeAt_inside f a o h, writeAt_inside f (a ++ b) o h]
  have hl : (f.take o).length = o := by simp [h]
  rw [writeAt_inside _ _ _ (by simp [h])]
  have e1 : (f.take o ++ a ++ f.drop (o + a.length)).take (o + a.length) = f.take o ++ a := by
    rw [List.take_append_of_le_length (by simp [h]), List.take_of_length_le (by simp [h])]
  have e2 : (f.take o ++ a ++ f.drop (o + a.length)).drop (o + a.length + b.length)
      = f.drop (o + (a ++ b).length) := by
    rw [List.drop_append, List.drop_eq_nil_of_le (by simp; omega), List.nil_append, List.drop_drop]
    simp only [List.length_append, hl]
    congr 1; omega
  rw [e1, e2]; simp

theorem write_write (w : WFile) (a b : Bytes) (h : w.pos ≤ w.bytes.length) :
    (w.write a).write b = w.write (a ++ b) := by
  simp [WFile.write, writeAt_writeAt _ _ _ _ h, Nat.add_assoc]

theorem write_pos_le (w : WFile) (a : Bytes) (h : w.pos ≤ w.bytes.length) :
    (w.write a).pos ≤ (w.write a).bytes.length := by
  simp only [WFile.write]
  rw [writeAt_inside _ _ _ h]
  simp; omega

theorem write_nil (w : WFile) : w.write [] = w := by
  simp [WFile.write, writeAt]

theorem copyChunks_eq (n : Nat) (hn : 0 < n) (w : WFile) (src : Bytes) (h : w.pos ≤ w.bytes.length) :
    copyChunks n hn w src = w.write src := by
  fun_induction copyChunks n hn w src with
  | case1 w => rw [write_nil]
  | case2 w src hs ih =>
    rw [ih (write_pos_le _ _ h), write_write _ _ _ h, List.take_append_drop]

/-- the bytes of one block -/
def blockBytes (fm : Fmt) (data : Bytes) (docSize minBlock next : Nat) : Bytes :=
  fm.blockHdr docSize (max minBlock data.length) next ++
    (data ++ List.replicate (max minBlock data.length - data.length) 0)

theorem blockBytes_length (fm : Fmt) (data : Bytes) (d m n : Nat) :
    (blockBytes fm data d m n).length = fm.blockHeader + max m data.length := by
  simp [blockBytes, blockHdr_length]; omega

theorem writeBlock_some (fm : Fmt) (w : WFile) (data : Bytes) (d m o : Nat) (nx : Option Nat)
    (h : o ≤ w.bytes.length) :
    writeBlock fm w data d m (some o) nx =
      ((w.seek o).write (blockBytes fm data d m (nextOf fm nx)), o) := by
  have hs : (w.seek o).pos ≤ (w.seek o).bytes.length := h
  simp only [writeBlock]
  rw [copyChunks_eq _ _ _ _ (write_pos_le _ _ hs), write_write _ _ _ hs, write_write _ _ _ hs]
  simp [blockBytes]

theorem writeBlock_none (fm : Fmt) (w : WFile) (data : Bytes) (d m : Nat) (nx : Option Nat)
    (h : w.pos = w.bytes.length) :
    writeBlock fm w data d m none nx =
      (⟨w.bytes ++ blockBytes fm data d m (nextOf fm nx),
        (w.bytes ++ blockBytes fm data d m (nextOf fm nx)).length⟩, w.bytes.length) := by
  have hs : w.pos ≤ w.bytes.length := by omega
  simp only [writeBlock]
  rw [copyChunks_eq _ _ _ _ (write_pos_le _ _ hs), write_write _ _ _ hs, write_write _ _ _ hs]
  simp only [WFile.write, h, writeAt_end]
  simp [blockBytes]

end V8
