import Verif.CrashRead
/- The phases of an interrupted build and what a reader makes of each (helper lemmas for Props/Crash). -/
namespace V8.Crash

theorem detect_header (g : Bytes) (n : Nat) (h : StoredAt g 0 (headerBytes fmt32 n)) : detectFormat g 0 = .ok (some fmt32) := by
  unfold detectFormat
  rw [if_neg (by omega)]
  simp only [Int.toNat_zero]
  have h8 : StoredAt g 0 (leBytes 4 fmt32.marker) := by
    unfold headerBytes at h
    exact h.left.left.left
  have h9 : (readAt g 0 8).take 4 = leBytes 4 fmt32.marker := by
    have := h8.read
    simp only [leBytes_length] at this
    unfold readAt at *
    rw [List.take_take]
    exact this
  rw [h9, if_pos (by decide)]

/-- reading a container after its header -/
theorem readContainer_doc (fm : Fmt) (f : Bytes) (n fuel : Nat) (hhdr : StoredAt f 0 (headerBytes fm n)) :
    readContainer fm fuel f 0 =
      match readDoc fm fuel f 0 fm.headerSize fm.indexBlock with
        | .error e => .error e
        | .ok toc =>
          match mapExcept fm.unpackPair (bsplit (leBytes fm.idxW fm.marker) toc.data).dropLast with
          | .error e => .error e
          | .ok offs =>
            match readEntries fm fuel f 0 512 offs (fm.headerSize + toc.fullSize, []) with
            | .error e => .error e
            | .ok (size, files) => .ok ⟨size, files⟩ := by
  have hbuff : readAt f 0 fm.headerSize = headerBytes fm n := by
    have := hhdr.read; rwa [headerBytes_length] at this
  unfold readContainer
  rw [if_neg (by omega)]
  simp only [Int.toNat_zero, hbuff, headerBytes_length]
  rw [if_neg (by simp)]
  have hdf : leInt32 (((headerBytes fm n).drop fm.idxW).take 4) = 512 := by
    have : (headerBytes fm n).drop fm.idxW = leBytes 4 defaultBlock ++ (leBytes 4 n ++ leBytes 4 0) := by
      unfold headerBytes
      rw [List.append_assoc, List.append_assoc, List.drop_append, List.drop_eq_nil_of_le (by simp)]
      simp
    rw [this, List.take_append_of_le_length (by simp), List.take_of_length_le (by simp)]
    decide
  rw [hdf, if_neg (by decide)]
  rfl

theorem loop_bad (g : Bytes) (n fuel steps : Nat) (hhdr : StoredAt g 0 (headerBytes fmt32 n))
    (hd : ∃ e, readDoc fmt32 fuel g 0 fmt32.headerSize fmt32.indexBlock = .error e) :
    ∃ e, extractLoop g fuel steps 0 = .error e := by
  cases steps with
  | zero => exact ⟨_, rfl⟩
  | succ steps =>
    obtain ⟨e, he⟩ := hd
    refine ⟨e, ?_⟩
    rw [extractLoop, detect_header g n hhdr]
    simp only
    rw [readContainer_doc fmt32 g n fuel hhdr, he]

/-- the file is shorter than its header -/
theorem loop_short (g : Bytes) (fuel steps : Nat) (hne : g ≠ []) (h : g.length < 16) :
    ∃ e, extractLoop g fuel steps 0 = .error e := by
  cases steps with
  | zero => exact ⟨_, rfl⟩
  | succ steps =>
    have hd : ∃ fm, detectFormat g 0 = .ok (some fm) ∧ 16 ≤ fm.headerSize := by
      unfold detectFormat
      rw [if_neg (by omega)]
      simp only [Int.toNat_zero]
      by_cases h1 : (readAt g 0 8).take 4 = [0xFF, 0xFF, 0xFF, 0x7F]
      · rw [if_pos h1]; exact ⟨_, rfl, by decide⟩
      · rw [if_neg h1, if_neg]
        · exact ⟨_, rfl, by decide⟩
        · intro hc
          have h3 := congrArg List.length hc
          rw [readAt_len, List.length_nil] at h3
          have : g.length ≠ 0 := fun h0 => hne (List.eq_nil_of_length_eq_zero h0)
          omega
    obtain ⟨fm, h1, h2⟩ := hd
    refine ⟨.struct, ?_⟩
    rw [extractLoop, h1]
    simp only
    unfold readContainer
    rw [if_neg (by omega)]
    simp only [Int.toNat_zero]
    rw [if_pos (by rw [readAt_len]; omega)]

/-- nothing written yet: no container is found -/
theorem loop_empty (fuel steps : Nat) : extractLoop [] fuel (steps + 1) 0 = .ok [] := by
  rw [extractLoop]
  have : detectFormat [] 0 = .ok none := by decide
  rw [this]

/-- **before the table**: header, reserved space and documents, as far as they were written -/
theorem loop_early (g D : Bytes) (n k fuel steps : Nat) (hg : g = (startBytes fmt32 n ++ D).take k) (hne : g ≠ []) :
    ∃ e, extractLoop g fuel steps 0 = .error e := by
  have hs : (startBytes fmt32 n).length = 16 + 543 := startBytes_length fmt32 n
  have hh : (headerBytes fmt32 n).length = 16 := headerBytes_length fmt32 n
  by_cases hk : g.length < 16
  · exact loop_short g fuel steps hne hk
  have hkl : 16 ≤ k := by
    rw [hg, List.length_take] at hk; omega
  have hst : StoredAt g 0 (headerBytes fmt32 n) := by
    refine ⟨[], (List.replicate (fmt32.indexBlock + fmt32.blockHeader) 0 ++ D).take (k - 16), ?_, rfl⟩
    rw [hg, startBytes, List.append_assoc, List.take_append, hh, List.take_of_length_le (by omega)]
    simp
  refine loop_bad g n fuel steps hst (readDoc_bad fmt32 fuel g _ _ ?_)
  obtain ⟨x, h1, h2⟩ := readBlock_bad fmt32 g 16 none (by decide) (by
    by_cases hl : g.length ≤ 16 + (3 * fmt32.hexW + 3)
    · exact .inr hl
    · left
      have hl' : 43 < g.length := by have : 16 + (3 * fmt32.hexW + 3) = 43 := rfl; omega
      have hk2 : 43 < k := by rw [hg, List.length_take] at hl'; omega
      rw [hg]
      show ((startBytes fmt32 n ++ D).take k)[43]? = some 0
      rw [List.getElem?_take_of_lt hk2, List.getElem?_append_left (by omega), startBytes,
        List.getElem?_append_right (by omega), hh, List.getElem?_replicate, if_pos (by decide)])
  rw [show ((fmt32.headerSize : Nat) : Int) = ((16 : Nat) : Int) from rfl, h1]
  exact h2

/-! ### The table in place -/

/-- the start of the file with the first `k` bytes of `B` written over the reserved space -/
theorem inplace (fm : Fmt) (n k : Nat) (D B : Bytes) (hB : B.length ≤ fm.indexBlock + fm.blockHeader) (hk : k ≤ B.length) :
    writeAt (startBytes fm n ++ D) fm.headerSize (B.take k) =
      headerBytes fm n ++ (B.take k ++ List.replicate (fm.indexBlock + fm.blockHeader - k) 0) ++ D := by
  have hs := startBytes_length fm n
  have hh := headerBytes_length fm n
  rw [writeAt_inside _ _ _ (by rw [List.length_append]; omega)]
  have e1 : (startBytes fm n ++ D).take fm.headerSize = headerBytes fm n := by
    rw [startBytes, List.append_assoc, List.take_append_of_le_length (by omega), List.take_of_length_le (by omega)]
  have e2 : (startBytes fm n ++ D).drop (fm.headerSize + (B.take k).length) =
      List.replicate (fm.indexBlock + fm.blockHeader - k) 0 ++ D := by
    rw [List.length_take, Nat.min_eq_left hk, startBytes, List.append_assoc, List.drop_append,
      List.drop_eq_nil_of_le (by omega), List.nil_append, hh, Nat.add_sub_cancel_left, List.drop_append,
      List.drop_replicate, List.length_replicate]
    have : k - (fm.indexBlock + fm.blockHeader) = 0 := by omega
    rw [this]; rfl
  rw [e1, e2]
  simp

/-- the header of the table is not complete -/
theorem table_bad (fm : Fmt) (wf : fm.WF) (n k fuel : Nat) (D B : Bytes) (hB : B.length ≤ fm.indexBlock + fm.blockHeader)
    (hk : k ≤ B.length) (hlt : k < 3 * fm.hexW + 4) (g : Bytes)
    (hg : g = writeAt (startBytes fm n ++ D) fm.headerSize (B.take k)) :
    ∃ e, readDoc fm fuel g 0 fm.headerSize fm.indexBlock = .error e := by
  have hh := headerBytes_length fm n
  have hbl := wf.block
  have hbh : fm.blockHeader = 3 * fm.hexW + 7 := rfl
  have hw := wf.hex
  rw [inplace fm n k D B hB hk] at hg
  apply readDoc_bad
  obtain ⟨x, h1, h2⟩ := readBlock_bad fm g fm.headerSize none (by omega) (by
    left
    rw [hg, List.append_assoc, List.getElem?_append_right (by omega), hh, Nat.add_sub_cancel_left, List.append_assoc,
      List.getElem?_append_right (by rw [List.length_take]; omega), List.length_take, Nat.min_eq_left hk,
      List.getElem?_append_left (by rw [List.length_replicate]; omega), List.getElem?_replicate, if_pos (by omega)])
  rw [h1]; exact h2

/-- the header of the table is complete: the sizes are read and what is there of the first block -/
theorem table_block (fm : Fmt) (wf : fm.WF) (n k : Nat) (D P : Bytes) (d b nx : Nat)
    (hP : P.length ≤ fm.indexBlock) (hk : k ≤ fm.blockHeader + P.length) (hge : 3 * fm.hexW + 4 ≤ k)
    (hd : d < 16 ^ fm.hexW) (hb : b < 16 ^ fm.hexW) (hn : nx < 16 ^ fm.hexW) (hbi : b ≤ fm.indexBlock) (hbd : b ≤ d) (g : Bytes)
    (hg : g = writeAt (startBytes fm n ++ D) fm.headerSize ((fm.blockHdr d b nx ++ P).take k)) :
    readBlock fm g 0 fm.headerSize none =
      .ok (some ⟨d, b, nx, (P.take (k - fm.blockHeader) ++
        List.replicate (fm.indexBlock - (k - fm.blockHeader)) 0).take b⟩) := by
  have hh := headerBytes_length fm n
  have hbl := wf.block
  have hbh : fm.blockHeader = 3 * fm.hexW + 7 := rfl
  have hBl : (fm.blockHdr d b nx ++ P).length = fm.blockHeader + P.length := by
    rw [List.length_append, blockHdr_length]
  rw [inplace fm n k D _ (by rw [hBl]; omega) (by rw [hBl]; omega)] at hg
  have hlg : fm.headerSize + fm.blockHeader ≤ g.length := by
    rw [hg]
    simp only [List.length_append, hh, List.length_replicate, List.length_take, blockHdr_length]
    omega
  have hs : StoredAt g fm.headerSize ((fm.blockHdr d b nx).take (3 * fm.hexW + 4)) := by
    refine ⟨headerBytes fm n, ((fm.blockHdr d b nx ++ P).take k).drop (3 * fm.hexW + 4) ++
      List.replicate (fm.indexBlock + fm.blockHeader - k) 0 ++ D, ?_, hh⟩
    have : (fm.blockHdr d b nx ++ P).take k = (fm.blockHdr d b nx).take (3 * fm.hexW + 4) ++
        ((fm.blockHdr d b nx ++ P).take k).drop (3 * fm.hexW + 4) := by
      conv => lhs; rw [← List.take_append_drop (3 * fm.hexW + 4) ((fm.blockHdr d b nx ++ P).take k)]
      congr 1
      rw [List.take_take, Nat.min_eq_left hge, List.take_append_of_le_length (by rw [blockHdr_length]; omega)]
    rw [hg]
    conv => lhs; rw [this]
    simp
  rw [readBlock_almost fm wf.hex g fm.headerSize d b nx hlg hs hd hb hn none]
  congr 3
  have hm : min b (effMax none b d) = b := by simp only [effMax]; omega
  rw [hm]
  unfold readAt
  have hrest : g.drop (fm.headerSize + fm.blockHeader) =
      P.take (k - fm.blockHeader) ++ List.replicate (fm.indexBlock - (k - fm.blockHeader)) 0 ++ D := by
    have h00 : (headerBytes fm n).drop fm.headerSize = [] := List.drop_eq_nil_of_le (by omega)
    rw [hg, List.append_assoc, ← List.drop_drop, List.drop_append, h00, hh,
      Nat.sub_self, List.drop_zero, List.nil_append, List.drop_append]
    have hl : ((fm.blockHdr d b nx ++ P).take k ++ List.replicate (fm.indexBlock + fm.blockHeader - k) 0).length =
        fm.indexBlock + fm.blockHeader := by
      simp only [List.length_append, List.length_take, blockHdr_length, List.length_replicate]; omega
    have h0 : fm.blockHeader - ((fm.blockHdr d b nx ++ P).take k ++ List.replicate (fm.indexBlock + fm.blockHeader - k) 0).length = 0 := by
      omega
    rw [h0, List.drop_zero]
    congr 1
    by_cases hkb : fm.blockHeader ≤ k
    · rw [List.take_append, List.take_of_length_le (by rw [blockHdr_length]; exact hkb), blockHdr_length, List.append_assoc,
        List.drop_append, List.drop_eq_nil_of_le (by rw [blockHdr_length]; omega), blockHdr_length, Nat.sub_self,
        List.drop_zero, List.nil_append]
      congr 2; omega
    · have hz : k - fm.blockHeader = 0 := by omega
      rw [hz, List.take_zero, List.nil_append, Nat.sub_zero, List.take_append_of_le_length (by rw [blockHdr_length]; omega),
        List.drop_append, List.drop_eq_nil_of_le (by rw [List.length_take, blockHdr_length]; omega), List.nil_append,
        List.drop_replicate, List.length_take, blockHdr_length]
      congr 1; omega
  rw [hrest, List.take_append_of_le_length (by
    simp only [List.length_append, List.length_take, List.length_replicate]; omega)]

/-- a short table of which `j` bytes were written -/
theorem table_cut (fm : Fmt) (wf : fm.WF) (n k fuel : Nat) (D t : Bytes) (ht : t.length ≤ fm.indexBlock) (htp : 0 < t.length)
    (hk : k ≤ fm.blockHeader + t.length) (hge : 3 * fm.hexW + 4 ≤ k) (g : Bytes)
    (hg : g = writeAt (startBytes fm n ++ D) fm.headerSize ((blockBytes fm t t.length 0 fm.marker).take k)) :
    ∃ full, fullSize fm t.length t.length fm.indexBlock = .ok full ∧
      readDoc fm fuel g 0 fm.headerSize fm.indexBlock = .ok ⟨full, t.length,
        t.take (k - fm.blockHeader) ++ List.replicate (t.length - (k - fm.blockHeader)) 0⟩ := by
  have hbh : fm.blockHeader = 3 * fm.hexW + 7 := rfl
  have hmk : fm.marker < 16 ^ fm.hexW := Nat.lt_of_lt_of_le wf.markerHi wf.capHex
  have hT : t.length < 16 ^ fm.hexW := Nat.lt_of_le_of_lt ht wf.ibHex
  have hB : blockBytes fm t t.length 0 fm.marker = fm.blockHdr t.length t.length fm.marker ++ t := by
    unfold blockBytes
    have : max 0 t.length = t.length := by omega
    rw [this]; simp
  rw [hB] at hg
  have hr := table_block fm wf n k D t t.length t.length fm.marker ht hk hge hT hT hmk ht (Nat.le_refl _) g hg
  have hfs : ∃ full, fullSize fm t.length t.length fm.indexBlock = .ok full := by
    unfold fullSize
    simp only
    split
    · rw [if_neg (by omega), if_pos trivial]; exact ⟨_, rfl⟩
    · exact ⟨_, rfl⟩
  obtain ⟨full, hfull⟩ := hfs
  refine ⟨full, hfull, ?_⟩
  have hdata : (t.take (k - fm.blockHeader) ++ List.replicate (fm.indexBlock - (k - fm.blockHeader)) 0).take t.length =
      t.take (k - fm.blockHeader) ++ List.replicate (t.length - (k - fm.blockHeader)) 0 := by
    rw [List.take_append, List.take_of_length_le (by rw [List.length_take]; omega), List.take_replicate, List.length_take]
    congr 2; omega
  rw [hdata] at hr
  unfold readDoc
  rw [hr]
  simp only [hfull]
  have hl : (t.take (k - fm.blockHeader) ++ List.replicate (t.length - (k - fm.blockHeader)) 0).length = t.length := by
    simp only [List.length_append, List.length_take, List.length_replicate]; omega
  rw [hl, Nat.sub_self]
  have : readChain fm g 0 fuel 0 fm.marker = .ok [] := by cases fuel <;> simp [readChain]
  rw [this]
  simp

/-- the first block of a long table, with no further block yet -/
theorem table_first (fm : Fmt) (wf : fm.WF) (n k fuel : Nat) (D t : Bytes) (ht : fm.indexBlock < t.length)
    (hN : fm.headerSize + (fm.indexBlock + fm.blockHeader) + D.length < 2 ^ (8 * fm.idxW - 1) - 1) (hT : t.length < 16 ^ fm.hexW)
    (hk : k ≤ fm.blockHeader + fm.indexBlock) (hge : 3 * fm.hexW + 4 ≤ k) (g : Bytes)
    (hg : g = writeAt (startBytes fm n ++ D) fm.headerSize ((blockBytes fm (t.take fm.indexBlock) t.length fm.indexBlock
      (fm.headerSize + (fm.indexBlock + fm.blockHeader) + D.length)).take k)) :
    ∃ e, readDoc fm fuel g 0 fm.headerSize fm.indexBlock = .error e := by
  have hbh : fm.blockHeader = 3 * fm.hexW + 7 := rfl
  have hmk : fm.marker < 16 ^ fm.hexW := Nat.lt_of_lt_of_le wf.markerHi wf.capHex
  have hcap : 2 ^ (8 * fm.idxW - 1) - 1 < 16 ^ fm.hexW := Nat.lt_of_le_of_lt wf.markerLo hmk
  have hml := wf.markerLo
  have hbl := wf.block
  have hgl : g.length = fm.headerSize + (fm.indexBlock + fm.blockHeader) + D.length := by
    rw [hg, inplace]
    · simp only [List.length_append, headerBytes_length, List.length_take, blockBytes_length, List.length_replicate]; omega
    · rw [blockBytes_length, List.length_take]; omega
    · rw [blockBytes_length, List.length_take]; omega
  rw [blockBytes_pad, padChunk_length] at hg
  have hr := table_block fm wf n k D (padChunk fm.indexBlock t) t.length fm.indexBlock
    (fm.headerSize + (fm.indexBlock + fm.blockHeader) + D.length) (Nat.le_of_eq (padChunk_length _ _))
    (by rw [padChunk_length]; exact hk) hge hT wf.ibHex (by omega) (Nat.le_refl _) (by omega) g hg
  generalize hX : (padChunk fm.indexBlock t).take (k - fm.blockHeader) ++
        List.replicate (fm.indexBlock - (k - fm.blockHeader)) 0 = X at hr
  unfold readDoc
  rw [hr]
  simp only
  cases fullSize fm t.length fm.indexBlock fm.indexBlock with
  | error e => exact ⟨_, rfl⟩
  | ok full =>
    simp only
    have hleft : 0 < t.length - (X.take fm.indexBlock).length := by
      rw [List.length_take]; omega
    have hch : ∃ e, readChain fm g 0 fuel (t.length - (X.take fm.indexBlock).length)
        (fm.headerSize + (fm.indexBlock + fm.blockHeader) + D.length) = .error e := by
      cases fuel with
      | zero => rw [readChain, if_pos ⟨hleft, by omega⟩]; exact ⟨_, rfl⟩
      | succ fuel =>
        rw [readChain, if_pos ⟨hleft, by omega⟩, readBlock_end fm g _ _ (by omega)]
        exact ⟨_, rfl⟩
    obtain ⟨e, he⟩ := hch
    rw [he]
    exact ⟨_, rfl⟩

/-! ### Further blocks of the table at the end of the file -/

theorem tail_cut (fm : Fmt) (wf : fm.WF) (i : Nat) : ∀ (f pre : Bytes) (k nbo : Nat) (rest : Bytes) (fuel : Nat),
    f = pre ++ (tailBlocks fm i nbo rest).take k → pre.length = nbo → rest.length ≤ i * fm.indexBlock →
    nbo + (tailBlocks fm i nbo rest).length < 2 ^ (8 * fm.idxW - 1) →
    (∃ e, readChain fm f 0 fuel rest.length nbo = .error e) ∨ readChain fm f 0 fuel rest.length nbo = .ok rest := by
  have hbh : fm.blockHeader = 3 * fm.hexW + 7 := rfl
  have hmk : fm.marker < 16 ^ fm.hexW := Nat.lt_of_lt_of_le wf.markerHi wf.capHex
  have hcap : 2 ^ (8 * fm.idxW - 1) - 1 < 16 ^ fm.hexW := Nat.lt_of_le_of_lt wf.markerLo hmk
  have hml := wf.markerLo
  have hbl := wf.block
  have done : ∀ (f : Bytes) (fuel nbo : Nat), readChain fm f 0 fuel 0 nbo = .ok [] := by
    intro f fuel nbo; cases fuel <;> simp [readChain]
  induction i with
  | zero =>
    intro f pre k nbo rest fuel _ _ hr _
    have : rest = [] := List.eq_nil_of_length_eq_zero (by omega)
    subst this
    exact .inr (done _ _ _)
  | succ i ih =>
    intro f pre k nbo rest fuel hf hpre hr hlen
    by_cases hne : rest = []
    · subst hne; exact .inr (done _ _ _)
    have hpos : 0 < rest.length := List.length_pos_iff.mpr hne
    have htl := tailBlocks_length fm (i + 1) nbo rest
    have htl' := tailBlocks_length fm i (nbo + fm.indexBlock + fm.blockHeader) (rest.drop fm.indexBlock)
    have hmul : (i + 1 + 1) * (fm.indexBlock + fm.blockHeader) =
        (i + 1) * (fm.indexBlock + fm.blockHeader) + (fm.indexBlock + fm.blockHeader) := Nat.succ_mul _ _
    have hmul2 : (i + 1) * (fm.indexBlock + fm.blockHeader) ≥ fm.indexBlock + fm.blockHeader :=
      Nat.le_mul_of_pos_left _ (by omega)
    have hne' : nbo ≠ fm.marker := by omega
    simp only [tailBlocks, blockBytes_pad, padChunk_length] at hf
    generalize hTB : tailBlocks fm i (nbo + fm.indexBlock + fm.blockHeader) (rest.drop fm.indexBlock) = TB at *
    cases fuel with
    | zero => left; rw [readChain, if_pos ⟨hpos, hne'⟩]; exact ⟨_, rfl⟩
    | succ fuel =>
      rw [readChain, if_pos ⟨hpos, hne'⟩]
      by_cases hk : k < fm.blockHeader
      · left
        have hfl : f.length < nbo + fm.blockHeader := by
          rw [hf]; simp only [List.length_append, List.length_take, blockHdr_length, padChunk_length]; omega
        rcases readBlock_short fm f nbo (some rest.length) hfl with h | ⟨e, h⟩ <;> rw [h] <;> exact ⟨_, rfl⟩
      · have hfe : f = pre ++ (fm.blockHdr 0 fm.indexBlock (nbo + fm.indexBlock + fm.blockHeader) ++
            (padChunk fm.indexBlock rest ++ TB).take (k - fm.blockHeader)) := by
          rw [hf, List.append_assoc, List.take_append, blockHdr_length,
            List.take_of_length_le (by rw [blockHdr_length]; omega)]
        have hfl : f.length = nbo + fm.blockHeader + min (k - fm.blockHeader) (fm.indexBlock + TB.length) := by
          rw [hfe]; simp only [List.length_append, blockHdr_length, List.length_take, padChunk_length]; omega
        have hs : StoredAt f nbo ((fm.blockHdr 0 fm.indexBlock (nbo + fm.indexBlock + fm.blockHeader)).take (3 * fm.hexW + 4)) := by
          refine ⟨pre, (fm.blockHdr 0 fm.indexBlock (nbo + fm.indexBlock + fm.blockHeader)).drop (3 * fm.hexW + 4) ++
            (padChunk fm.indexBlock rest ++ TB).take (k - fm.blockHeader), ?_, hpre⟩
          rw [hfe, List.append_assoc pre, ← List.append_assoc (List.take _ _), List.take_append_drop]
        rw [readBlock_almost fm wf.hex f nbo 0 fm.indexBlock (nbo + fm.indexBlock + fm.blockHeader) (by omega) hs
          (by omega) wf.ibHex (by omega) (some rest.length)]
        simp only [effMax]
        have hdrop : f.drop (nbo + fm.blockHeader) = (padChunk fm.indexBlock rest ++ TB).take (k - fm.blockHeader) := by
          have h00 : pre.drop nbo = [] := List.drop_eq_nil_of_le (by omega)
          have h01 : (fm.blockHdr 0 fm.indexBlock (nbo + fm.indexBlock + fm.blockHeader)).drop fm.blockHeader = [] :=
            List.drop_eq_nil_of_le (by rw [blockHdr_length]; exact Nat.le_refl _)
          have h02 : ∀ X : Bytes, (pre ++ X).drop nbo = X := by
            intro X; rw [List.drop_append, h00, hpre, Nat.sub_self, List.drop_zero, List.nil_append]
          rw [hfe, ← List.drop_drop, h02, List.drop_append, h01, blockHdr_length, Nat.sub_self, List.drop_zero,
            List.nil_append]
        have hdata : readAt f (nbo + fm.blockHeader) (min fm.indexBlock rest.length) =
            (rest.take fm.indexBlock).take (k - fm.blockHeader) := by
          unfold readAt
          rw [hdrop, List.take_take, Nat.min_comm, ← List.take_take,
            List.take_append_of_le_length (by rw [padChunk_length]; omega), padChunk,
            List.take_append_of_le_length (by rw [List.length_take]; omega), List.take_take]
          have hT : (rest.take fm.indexBlock).take (min fm.indexBlock rest.length) = rest.take fm.indexBlock :=
            List.take_of_length_le (by rw [List.length_take]; exact Nat.le_refl _)
          rw [← List.take_take, hT]
        rw [hdata]
        by_cases hfull : fm.blockHeader + min fm.indexBlock rest.length ≤ k
        · have hall : (rest.take fm.indexBlock).take (k - fm.blockHeader) = rest.take fm.indexBlock :=
            List.take_of_length_le (by rw [List.length_take]; omega)
          rw [hall]
          have hleft : rest.length - (rest.take fm.indexBlock).length = (rest.drop fm.indexBlock).length := by
            rw [List.length_take, List.length_drop]; omega
          rw [hleft]
          have step : (∃ e, readChain fm f 0 fuel (rest.drop fm.indexBlock).length (nbo + fm.indexBlock + fm.blockHeader) = .error e) ∨
              readChain fm f 0 fuel (rest.drop fm.indexBlock).length (nbo + fm.indexBlock + fm.blockHeader) = .ok (rest.drop fm.indexBlock) := by
            by_cases hend : rest.drop fm.indexBlock = []
            · rw [hend]; exact .inr (done _ _ _)
            · have hgt : fm.indexBlock < rest.length := by
                rcases Nat.lt_or_ge fm.indexBlock rest.length with h | h
                · exact h
                · exact absurd (List.drop_eq_nil_of_le h) hend
              refine ih f (pre ++ (fm.blockHdr 0 fm.indexBlock (nbo + fm.indexBlock + fm.blockHeader) ++ padChunk fm.indexBlock rest))
                (k - fm.blockHeader - fm.indexBlock) (nbo + fm.indexBlock + fm.blockHeader) (rest.drop fm.indexBlock) fuel ?_ ?_ ?_ ?_
              · rw [hfe, hTB, List.take_append, padChunk_length, List.take_of_length_le (by rw [padChunk_length]; omega)]
                simp
              · simp only [List.length_append, blockHdr_length, padChunk_length]; omega
              · rw [List.length_drop]; rw [Nat.succ_mul] at hr; omega
              · rw [hTB]; omega
          rcases step with ⟨e, he⟩ | he
          · left; rw [he]; exact ⟨_, rfl⟩
          · right; rw [he]; simp only [List.take_append_drop]
        · left
          have hdl : ((rest.take fm.indexBlock).take (k - fm.blockHeader)).length = k - fm.blockHeader := by
            simp only [List.length_take]; omega
          rw [hdl]
          have hpos' : 0 < rest.length - (k - fm.blockHeader) := by omega
          have hnm : nbo + fm.indexBlock + fm.blockHeader ≠ fm.marker := by omega
          have hch : ∃ e, readChain fm f 0 fuel (rest.length - (k - fm.blockHeader)) (nbo + fm.indexBlock + fm.blockHeader) = .error e := by
            cases fuel with
            | zero => rw [readChain, if_pos ⟨hpos', hnm⟩]; exact ⟨_, rfl⟩
            | succ fuel =>
              rw [readChain, if_pos ⟨hpos', hnm⟩, readBlock_end fm f _ _ (by omega)]
              exact ⟨_, rfl⟩
          obtain ⟨e, he⟩ := hch
          rw [he]; exact ⟨_, rfl⟩

end V8.Crash
