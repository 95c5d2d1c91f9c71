import Verif.ContainerRead
/- The table of contents: what is written and what is read back (helper lemmas). -/
namespace V8

def padChunk (ib : Nat) (r : Bytes) : Bytes := r.take ib ++ List.replicate (ib - (r.take ib).length) 0

theorem padChunk_length (ib : Nat) (r : Bytes) : (padChunk ib r).length = ib := by
  simp [padChunk]; omega

theorem blockBytes_pad (fm : Fmt) (r : Bytes) (d n : Nat) :
    blockBytes fm (r.take fm.indexBlock) d fm.indexBlock n =
      fm.blockHdr d (padChunk fm.indexBlock r).length n ++ padChunk fm.indexBlock r := by
  have : max fm.indexBlock (r.take fm.indexBlock).length = fm.indexBlock := by simp; omega
  unfold blockBytes
  rw [this, padChunk_length]
  rfl

def tailBlocks (fm : Fmt) : Nat → Nat → Bytes → Bytes
  | 0, _, rest => blockBytes fm (rest.take fm.indexBlock) 0 fm.indexBlock fm.marker
  | k+1, nbo, rest =>
    blockBytes fm (rest.take fm.indexBlock) 0 fm.indexBlock (nbo + fm.indexBlock + fm.blockHeader) ++
      tailBlocks fm k (nbo + fm.indexBlock + fm.blockHeader) (rest.drop fm.indexBlock)

def tailPayloads (ib : Nat) : Nat → Bytes → List Bytes
  | 0, rest => [padChunk ib rest]
  | k+1, rest => padChunk ib rest :: tailPayloads ib k (rest.drop ib)

theorem tailPayloads_length (ib k : Nat) (rest : Bytes) : (tailPayloads ib k rest).length = k + 1 := by
  induction k generalizing rest with
  | zero => rfl
  | succ k ih => simp [tailPayloads, ih]

theorem tailBlocks_length (fm : Fmt) (k nbo : Nat) (rest : Bytes) :
    (tailBlocks fm k nbo rest).length = (k + 1) * (fm.indexBlock + fm.blockHeader) := by
  induction k generalizing nbo rest with
  | zero => simp only [tailBlocks, blockBytes_pad, List.length_append, blockHdr_length, padChunk_length]; omega
  | succ k ih =>
    simp only [tailBlocks, List.length_append, ih, blockBytes_pad, blockHdr_length, padChunk_length]
    rw [Nat.succ_mul (k+1)]; omega

theorem tocTail_eq (fm : Fmt) (k : Nat) (w : WFile) (nbo : Nat) (rest : Bytes) (hp : w.pos = w.bytes.length) :
    (let r := tocTail fm k w nbo rest
     (writeBlock fm r.1 (r.2.take fm.indexBlock) 0 fm.indexBlock none none).1.bytes) =
      w.bytes ++ tailBlocks fm k nbo rest := by
  induction k generalizing w nbo rest with
  | zero =>
    simp only [tocTail, tailBlocks]
    rw [writeBlock_none _ _ _ _ _ _ hp]; rfl
  | succ k ih =>
    simp only [tocTail, tailBlocks]
    rw [writeBlock_none _ _ _ _ _ _ hp]
    simp only
    rw [ih _ _ _ rfl]
    have : nextOf fm (some (nbo + fm.indexBlock + fm.blockHeader)) = nbo + fm.indexBlock + fm.blockHeader := by
      have : fm.blockHeader ≠ 0 := by simp [Fmt.blockHeader]
      simp only [nextOf]; rw [if_neg (by omega)]
    rw [this]; simp

theorem chain_tail (fm : Fmt) (wf : fm.WF) (f : Bytes) (k nbo : Nat) (rest : Bytes)
    (hs : StoredAt f nbo (tailBlocks fm k nbo rest)) (hl : f.length < 2 ^ (8 * fm.idxW - 1)) :
    ChainAt fm f 0 nbo (tailPayloads fm.indexBlock k rest) := by
  have hmk : fm.marker < 16 ^ fm.hexW := Nat.lt_of_lt_of_le wf.markerHi wf.capHex
  have hcap : 2 ^ (8 * fm.idxW - 1) - 1 < 16 ^ fm.hexW := Nat.lt_of_le_of_lt wf.markerLo hmk
  have hlo := wf.markerLo
  have hbl := wf.block
  have hbh : fm.blockHeader ≥ 7 := by simp [Fmt.blockHeader]
  have hz : (0:Nat) < 16 ^ fm.hexW := by omega
  induction k generalizing nbo rest with
  | zero =>
    simp only [tailBlocks, blockBytes_pad] at hs
    have := hs.le
    simp only [List.length_append, blockHdr_length, padChunk_length] at this
    exact .cons nbo nbo 0 fm.marker _ [] (by omega) (by omega) hs hz
      (by rw [padChunk_length]; omega) hmk .nil
  | succ k ih =>
    simp only [tailBlocks, blockBytes_pad] at hs
    have h1 := hs.left
    have h2 := hs.right
    have hle := h2.le
    simp only [List.length_append, blockHdr_length, padChunk_length, tailBlocks_length] at hle h2
    have hmul : (k + 1) * (fm.indexBlock + fm.blockHeader) ≥ fm.indexBlock + fm.blockHeader :=
      Nat.le_mul_of_pos_left _ (by omega)
    have he : nbo + (fm.blockHeader + fm.indexBlock) = nbo + fm.indexBlock + fm.blockHeader := by omega
    rw [he] at h2
    exact .cons nbo nbo 0 _ _ _ (by omega) (by omega) h1 hz
      (by rw [padChunk_length]; omega) (by omega) (ih _ _ h2)

theorem tailPayloads_flatten (ib k : Nat) (rest : Bytes) (h : rest.length ≤ (k + 1) * ib) :
    ∃ z, (tailPayloads ib k rest).flatten = rest ++ List.replicate z 0 := by
  induction k generalizing rest with
  | zero =>
    refine ⟨ib - (rest.take ib).length, ?_⟩
    simp only [tailPayloads, List.flatten_cons, List.flatten_nil, List.append_nil, padChunk]
    rw [List.take_of_length_le (by omega)]
  | succ k ih =>
    obtain ⟨z, hz⟩ := ih (rest.drop ib) (by
      simp only [List.length_drop]
      rw [Nat.succ_mul (k+1)] at h; omega)
    by_cases hb : rest.length ≤ ib
    · have hd : rest.drop ib = [] := List.drop_eq_nil_of_le hb
      rw [hd] at hz
      refine ⟨ib - (rest.take ib).length + z, ?_⟩
      simp only [tailPayloads, List.flatten_cons, padChunk, hd, hz]
      rw [List.take_of_length_le hb]
      simp [List.replicate_append_replicate]
    · refine ⟨z, ?_⟩
      simp only [tailPayloads, List.flatten_cons, padChunk, hz]
      have : ib - (rest.take ib).length = 0 := by simp; omega
      rw [this]
      simp only [List.replicate_zero, List.append_nil]
      rw [← List.append_assoc, List.take_append_drop]

theorem ceilDiv_one {a b : Nat} (ha : 0 < a) (hb : 0 < b) : ceilDiv a b = 1 ↔ a ≤ b := by
  unfold ceilDiv
  constructor
  · intro h
    rcases Nat.lt_or_ge b a with h1 | h1
    · have h2 : 2 ≤ (a + b - 1) / b := by
        rw [Nat.le_div_iff_mul_le hb]; omega
      omega
    · exact h1
  · intro h
    apply Nat.div_eq_of_lt_le <;> omega

theorem ceilDiv_spec {a b : Nat} (ha : 0 < a) (hb : 0 < b) :
    1 ≤ ceilDiv a b ∧ a ≤ ceilDiv a b * b ∧ (ceilDiv a b - 1) * b < a := by
  unfold ceilDiv
  have h1 := Nat.div_add_mod (a + b - 1) b
  have h2 := Nat.mod_lt (a + b - 1) hb
  rw [Nat.mul_comm] at h1
  generalize hq : (a + b - 1) / b = q at *
  have hq1 : 1 ≤ q := by
    rcases Nat.eq_zero_or_pos q with h0 | h0
    · rw [h0] at h1; simp at h1; omega
    · exact h0
  obtain ⟨q, rfl⟩ : ∃ q', q = q' + 1 := ⟨q - 1, by omega⟩
  rw [Nat.succ_mul] at *
  simp only [Nat.add_sub_cancel]
  omega

/-- the shape of the file after the table of contents was written, and what reading it gives -/
theorem writeToc_shape (fm : Fmt) (wf : fm.WF) (w w' : WFile) (H Z D : Bytes) (l : List (Nat × Nat))
    (hw : w.bytes = H ++ Z ++ D) (hH : H.length = fm.headerSize) (hZ : Z.length = fm.indexBlock + fm.blockHeader)
    (h : writeToc fm w (l.map fun p => (p.1, some p.2)) = .ok w') :
    l ≠ [] ∧ (∀ p ∈ l, p.1 < fm.idxLimit ∧ p.2 < fm.idxLimit) ∧
    ∃ T X, w'.bytes = H ++ T ++ D ++ X ∧ T.length = Z.length ∧
      (w'.bytes.length < 2 ^ (8 * fm.idxW - 1) ∨ (tocBytes fm l).length ≤ fm.indexBlock →
        ∀ fuel, (tocBytes fm l).length ≤ fuel →
          ∃ full, readDoc fm fuel w'.bytes 0 fm.headerSize fm.indexBlock =
            .ok ⟨full, (tocBytes fm l).length, tocBytes fm l⟩ ∧
            (w'.bytes.length : Int) ≤ fm.headerSize + full + D.length) := by
  have hmk : fm.marker < 16 ^ fm.hexW := Nat.lt_of_lt_of_le wf.markerHi wf.capHex
  have hcap : 2 ^ (8 * fm.idxW - 1) - 1 < 16 ^ fm.hexW := Nat.lt_of_le_of_lt wf.markerLo hmk
  have hbl := wf.block
  have hbh : fm.blockHeader ≥ 7 := by simp [Fmt.blockHeader]
  unfold writeToc at h
  by_cases hne : l = []
  · subst hne; simp at h
  rw [if_neg (by simpa using hne)] at h
  cases hpk : packToc fm (l.map fun p => (p.1, some p.2)) with
  | error e => rw [hpk] at h; cases h
  | ok t =>
    rw [hpk] at h
    obtain ⟨rfl, hlim⟩ := packToc_ok fm l t hpk
    refine ⟨hne, hlim, ?_⟩
    have htl : (tocBytes fm l).length = 3 * fm.idxW * l.length := tocBytes_length fm l
    have htpos : 0 < (tocBytes fm l).length := by
      rw [htl]
      have := wf.idx
      have : 0 < l.length := List.length_pos_iff.mpr hne
      apply Nat.mul_pos <;> omega
    generalize tocBytes fm l = t at *
    have hib : 0 < fm.indexBlock := by omega
    have hwl : fm.headerSize ≤ w.bytes.length := by rw [hw]; simp; omega
    simp only at h
    by_cases hone : ceilDiv t.length fm.indexBlock = 1
    · rw [if_pos hone, writeBlock_some _ _ _ _ _ _ _ hwl] at h
      have hle : t.length ≤ fm.indexBlock := (ceilDiv_one htpos hib).mp hone
      injection h with h
      subst h
      have hblen := blockBytes_length fm t t.length 0 (nextOf fm none)
      have hbytes : ((w.seek fm.headerSize).write (blockBytes fm t t.length 0 (nextOf fm none))).bytes =
          H ++ (blockBytes fm t t.length 0 fm.marker ++ Z.drop (fm.blockHeader + t.length)) ++ D ++ [] := by
        simp only [WFile.write, WFile.seek]
        rw [writeAt_inside _ _ _ hwl, hw, hblen]
        have e1 : (H ++ Z ++ D).take fm.headerSize = H := by
          rw [List.append_assoc, List.take_append_of_le_length (by omega), List.take_of_length_le (by omega)]
        have e2 : (H ++ Z ++ D).drop (fm.headerSize + (fm.blockHeader + max 0 t.length)) =
            Z.drop (fm.blockHeader + t.length) ++ D := by
          rw [List.append_assoc, List.drop_append, List.drop_eq_nil_of_le (by omega), List.nil_append,
            List.drop_append]
          have a1 : fm.headerSize + (fm.blockHeader + max 0 t.length) - H.length = fm.blockHeader + t.length := by
            omega
          have a2 : fm.blockHeader + t.length - Z.length = 0 := by omega
          rw [a1, a2]; simp
        rw [e1, e2]
        simp [nextOf]
      have hblen : (blockBytes fm t t.length 0 fm.marker).length = fm.blockHeader + max 0 t.length :=
        blockBytes_length fm t t.length 0 fm.marker
      refine ⟨_, [], hbytes, ?_, ?_⟩
      · simp only [List.length_append, hblen, List.length_drop]; omega
      · intro hlen fuel hfuel
        rw [hbytes]
        have hs : StoredAt (H ++ (blockBytes fm t t.length 0 fm.marker ++ Z.drop (fm.blockHeader + t.length)) ++ D ++ [])
            fm.headerSize (fm.blockHdr t.length t.length fm.marker ++ t) := by
          refine ⟨H, Z.drop (fm.blockHeader + t.length) ++ D, ?_, hH⟩
          have : blockBytes fm t t.length 0 fm.marker = fm.blockHdr t.length t.length fm.marker ++ t := by
            unfold blockBytes
            have : max 0 t.length = t.length := by omega
            rw [this]; simp
          rw [this]; simp
        have hT : t.length < 16 ^ fm.hexW := Nat.lt_of_le_of_lt hle wf.ibHex
        have hfs : ∃ full, fullSize fm t.length t.length fm.indexBlock = .ok full ∧
            ((fm.indexBlock + fm.blockHeader : Nat) : Int) ≤ full := by
          unfold fullSize
          simp only
          split
          · rw [if_neg (by omega), if_pos trivial]
            have : ceilDiv t.length t.length = 1 := (ceilDiv_one htpos htpos).mpr (Nat.le_refl _)
            rw [this]
            refine ⟨_, rfl, ?_⟩
            omega
          · exact ⟨_, rfl, by omega⟩
        obtain ⟨full, hf1, hf2⟩ := hfs
        refine ⟨full, ?_, ?_⟩
        · rw [readDoc_chain fm wf.hex _ 0 fm.headerSize fm.headerSize t.length fm.marker t [] (by omega) hs hT hT hmk
            .nil fuel (by simp) fm.indexBlock full hf1]
          simp
        · simp only [List.length_append, hblen, List.length_drop, List.length_nil]
          omega
    · rw [if_neg hone] at h
      have hgt : fm.indexBlock < t.length := by
        rcases Nat.lt_or_ge fm.indexBlock t.length with h1 | h1
        · exact h1
        · exact absurd ((ceilDiv_one htpos hib).mpr h1) hone
      obtain ⟨c1, c2, c3⟩ := ceilDiv_spec htpos hib
      generalize hc : ceilDiv t.length fm.indexBlock = c at *
      obtain ⟨k, rfl⟩ : ∃ k, c = k + 2 := ⟨c - 2, by omega⟩
      rw [writeBlock_some _ _ _ _ _ _ _ hwl] at h
      have hnx : nextOf fm (some w.bytes.length) = w.bytes.length := by
        simp only [nextOf]; rw [if_neg]; rw [hw]; simp only [List.length_append]; omega
      rw [hnx] at h
      have hblen : (blockBytes fm (t.take fm.indexBlock) t.length fm.indexBlock w.bytes.length).length =
          fm.blockHeader + fm.indexBlock := by
        rw [blockBytes_pad]; simp [blockHdr_length, padChunk_length]
      have hbytes : ((w.seek fm.headerSize).write
          (blockBytes fm (t.take fm.indexBlock) t.length fm.indexBlock w.bytes.length)).bytes =
          H ++ blockBytes fm (t.take fm.indexBlock) t.length fm.indexBlock w.bytes.length ++ D := by
        simp only [WFile.write, WFile.seek]
        rw [writeAt_inside _ _ _ hwl, hblen]
        have e1 : w.bytes.take fm.headerSize = H := by
          rw [hw, List.append_assoc, List.take_append_of_le_length (by omega), List.take_of_length_le (by omega)]
        have e2 : w.bytes.drop (fm.headerSize + (fm.blockHeader + fm.indexBlock)) = D := by
          rw [hw, List.drop_append, List.drop_eq_nil_of_le (by simp only [List.length_append]; omega),
            List.nil_append]
          have : fm.headerSize + (fm.blockHeader + fm.indexBlock) - (H ++ Z).length = 0 := by
            simp only [List.length_append]; omega
          rw [this]; simp
        rw [e1, e2]
      have hlen0 : (H ++ blockBytes fm (t.take fm.indexBlock) t.length fm.indexBlock w.bytes.length ++ D).length
          = w.bytes.length := by
        rw [hw] at *
        simp only [List.length_append, hblen] at *
        omega
      injection h with h
      have hfin : w'.bytes = H ++ blockBytes fm (t.take fm.indexBlock) t.length fm.indexBlock w.bytes.length ++ D ++
          tailBlocks fm (k+1) w.bytes.length (t.drop fm.indexBlock) := by
        rw [← h]
        have := tocTail_eq fm (k + 2 - 1) (((w.seek fm.headerSize).write
          (blockBytes fm (t.take fm.indexBlock) t.length fm.indexBlock w.bytes.length)).seek
            ((w.seek fm.headerSize).write
          (blockBytes fm (t.take fm.indexBlock) t.length fm.indexBlock w.bytes.length)).bytes.length)
          w.bytes.length (t.drop fm.indexBlock) rfl
        simp only at this
        rw [this]
        have : (((w.seek fm.headerSize).write
          (blockBytes fm (t.take fm.indexBlock) t.length fm.indexBlock w.bytes.length)).seek
            ((w.seek fm.headerSize).write
          (blockBytes fm (t.take fm.indexBlock) t.length fm.indexBlock w.bytes.length)).bytes.length).bytes =
          ((w.seek fm.headerSize).write
          (blockBytes fm (t.take fm.indexBlock) t.length fm.indexBlock w.bytes.length)).bytes := rfl
        rw [this, hbytes]
        rfl
      refine ⟨_, _, hfin, by omega, ?_⟩
      intro hlen fuel hfuel
      have hlen := hlen.resolve_right (by omega)
      have htail := tailBlocks_length fm (k+1) w.bytes.length (t.drop fm.indexBlock)
      have hs : StoredAt w'.bytes fm.headerSize
          (fm.blockHdr t.length (padChunk fm.indexBlock t).length w.bytes.length ++ padChunk fm.indexBlock t) := by
        rw [← blockBytes_pad]
        exact ⟨H, D ++ tailBlocks fm (k+1) w.bytes.length (t.drop fm.indexBlock), by rw [hfin]; simp, hH⟩
      have hst : StoredAt w'.bytes w.bytes.length (tailBlocks fm (k+1) w.bytes.length (t.drop fm.indexBlock)) :=
        ⟨_, [], by rw [hfin, List.append_nil], hlen0⟩
      have hch := chain_tail fm wf w'.bytes (k+1) w.bytes.length _ hst hlen
      have hwlen : w'.bytes.length = w.bytes.length + (k + 2) * (fm.indexBlock + fm.blockHeader) := by
        rw [hfin, List.length_append, hlen0, htail]
      have htl2 : t.length ≤ (k + 2) * (fm.indexBlock + fm.blockHeader) :=
        Nat.le_trans c2 (Nat.mul_le_mul_left _ (by omega))
      have hT : t.length < 16 ^ fm.hexW := by omega
      have hfs : ∃ full, fullSize fm t.length (padChunk fm.indexBlock t).length fm.indexBlock = .ok full ∧
          full = t.length + (k + 3 : Nat) * fm.indexBlock := by
        unfold fullSize
        rw [padChunk_length]
        simp only
        rw [if_pos (by omega), if_neg (by omega), hc, if_pos trivial]
        refine ⟨_, rfl, ?_⟩
        have : max (t.length : Int) (fm.indexBlock : Int) = t.length := by omega
        rw [this]
        have : ((k + 3 : Nat) : Int) = ((k + 2 : Nat) : Int) + 1 := by omega
        rw [this, Int.add_mul]; omega
      obtain ⟨full, hf1, hf2⟩ := hfs
      have hflat := tailPayloads_flatten fm.indexBlock (k+1) (t.drop fm.indexBlock) (by
        simp only [List.length_drop]
        have c2 : t.length ≤ (k + 1 + 1) * fm.indexBlock := c2
        omega)
      obtain ⟨z, hz⟩ := hflat
      have hkf : k + 2 ≤ t.length := by
        have : (k + 1) * 28 ≤ (k + 2 - 1) * fm.indexBlock := Nat.mul_le_mul (by omega) (by omega)
        omega
      refine ⟨full, ?_, ?_⟩
      · rw [readDoc_chain fm wf.hex _ 0 fm.headerSize fm.headerSize t.length w.bytes.length _
          (tailPayloads fm.indexBlock (k+1) (t.drop fm.indexBlock)) (by omega) hs hT
          (by rw [padChunk_length]; omega) (by omega)
          hch fuel (by rw [tailPayloads_length]; omega) fm.indexBlock full hf1]
        congr 2
        rw [hz]
        have : padChunk fm.indexBlock t = t.take fm.indexBlock := by
          unfold padChunk
          have : fm.indexBlock - (t.take fm.indexBlock).length = 0 := by simp; omega
          rw [this]; simp
        rw [this, ← List.append_assoc, List.take_append_drop]
        simp
      · rw [hf2, hwlen]
        have hlw : w.bytes.length = fm.headerSize + (fm.indexBlock + fm.blockHeader) + D.length := by
          rw [hw]; simp only [List.length_append]; omega
        have hdd : (k + 3) * fm.blockHeader ≤ t.length := by
          have h4 : (k + 1) * (4 * fm.blockHeader) ≤ (k + 2 - 1) * fm.indexBlock := Nat.mul_le_mul (by omega) hbl
          have h5 : (k + 3) * fm.blockHeader ≤ (k + 1) * (4 * fm.blockHeader) := by
            rw [← Nat.mul_assoc]; exact Nat.mul_le_mul (by omega) (Nat.le_refl _)
          omega
        have e3 : (k + 2) * (fm.indexBlock + fm.blockHeader) + (fm.indexBlock + fm.blockHeader) =
            (k + 3) * fm.indexBlock + (k + 3) * fm.blockHeader := by
          rw [← Nat.succ_mul, Nat.mul_add]
        have e4 : ((k + 3 : Nat) : Int) * (fm.indexBlock : Int) = (((k + 3) * fm.indexBlock : Nat) : Int) := by
          push_cast; rfl
        rw [e4]
        omega

end V8
