import Verif.CrashLemmas
/- Reading a file whose build was interrupted (helper lemmas for Props/Crash). -/
namespace V8.Crash

/-! ### The record tells the contents of the file -/

/-- the file holds what its record says -/
def Recorded (l : LFile) : Prop := replay [] l.log = l.w.bytes

theorem recorded_write (l : LFile) (b : Bytes) (h : Recorded l) : Recorded (l.write b) := by
  unfold Recorded LFile.write at *
  rw [replay_append, h]; rfl

theorem recorded_seek (l : LFile) (o : Nat) (h : Recorded l) : Recorded (l.seek o) := h

theorem recorded_place (l : LFile) (o : Option Nat) (h : Recorded l) : Recorded (placeL l o) := by
  cases o <;> exact h

theorem recorded_copy (n : Nat) (hn : 0 < n) (l : LFile) (src : Bytes) (h : Recorded l) : Recorded (copyL n hn l src) := by
  fun_induction copyL n hn l src with
  | case1 l => exact h
  | case2 l src hs ih => exact ih (recorded_write _ _ h)

theorem recorded_block (fm : Fmt) (l : LFile) (data : Bytes) (d m : Nat) (o nx : Option Nat) (h : Recorded l) :
    Recorded (writeBlockL fm l data d m o nx).1 :=
  recorded_write _ _ (recorded_copy _ _ _ _ (recorded_write _ _ (recorded_place _ _ h)))

theorem recorded_addFile (fm : Fmt) (l : LFile) (name : List Char) (ct mt : Nat) (data : Bytes) (h : Recorded l) :
    Recorded (addFileL fm l name ct mt data).1 := by
  unfold addFileL
  cases attrBytes ct mt name with
  | error e => exact h
  | ok ab => exact recorded_block _ _ _ _ _ _ _ (recorded_block _ _ _ _ _ _ _ h)

theorem recorded_addAll (fm : Fmt) (es : List Entry) (l : LFile) (toc : List TocEntry) (h : Recorded l) :
    Recorded (addAllL fm es (l, toc)).1 := by
  induction es generalizing l toc with
  | nil => exact h
  | cons e es ih =>
    simp only [addAllL]
    cases e.node with
    | dir => exact h
    | file ct mt data =>
      have h1 := recorded_addFile fm l e.name ct mt data h
      simp only
      rcases hx : addFileL fm l e.name ct mt data with ⟨l1, er | t⟩
      · rw [hx] at h1; exact h1
      · rw [hx] at h1; exact ih l1 _ h1

theorem recorded_tail (fm : Fmt) (k : Nat) (l : LFile) (nbo : Nat) (rest : Bytes) (h : Recorded l) :
    Recorded (tocTailL fm k l nbo rest).1 := by
  induction k generalizing l nbo rest with
  | zero => exact h
  | succ k ih => exact ih _ _ _ (recorded_block _ _ _ _ _ _ _ h)

theorem recorded_toc (fm : Fmt) (l : LFile) (toc : List TocEntry) (h : Recorded l) : Recorded (writeTocL fm l toc).1 := by
  unfold writeTocL
  by_cases h1 : toc = []
  · rw [if_pos h1]; exact h
  rw [if_neg h1]
  cases packToc fm toc with
  | error e => exact h
  | ok t =>
    simp only
    by_cases h2 : ceilDiv t.length fm.indexBlock = 1
    · rw [if_pos h2]; exact recorded_block _ _ _ _ _ _ _ h
    · rw [if_neg h2]
      exact recorded_block _ _ _ _ _ _ _ (recorded_tail _ _ _ _ _ (recorded_block _ _ _ _ _ _ _ h))

theorem recorded_build (fm : Fmt) (listing : List Entry) : Recorded (buildL fm ⟨⟨[], 0⟩, []⟩ listing 0).1 := by
  unfold buildL writeHeaderL
  by_cases hc : (listing.mergeSort entryLe).length < 2 ^ 31
  · simp only [if_pos hc, filesL]
    have h0 : Recorded ((((⟨⟨[], 0⟩, []⟩ : LFile).seek 0).write (leBytes fm.idxW fm.marker ++ leBytes 4 defaultBlock ++
        leBytes 4 (listing.mergeSort entryLe).length ++ leBytes 4 0)).write
        (List.replicate (fm.indexBlock + fm.blockHeader) 0)) := recorded_write _ _ (recorded_write _ _ rfl)
    generalize (((⟨⟨[], 0⟩, []⟩ : LFile).seek 0).write (leBytes fm.idxW fm.marker ++ leBytes 4 defaultBlock ++
        leBytes 4 (listing.mergeSort entryLe).length ++ leBytes 4 0)).write
        (List.replicate (fm.indexBlock + fm.blockHeader) 0) = l0 at *
    have h1 := recorded_addAll fm (listing.mergeSort entryLe) l0 [] h0
    rcases hx : addAllL fm (listing.mergeSort entryLe) (l0, []) with ⟨l1, er | t⟩
    · rw [hx] at h1; exact h1
    · rw [hx] at h1; exact recorded_toc fm l1 t h1
  · simp only [if_neg hc]; exact rfl

/-! ### Block headers that are not complete -/

theorem parseHexAux_bad (acc : Nat) (y : Bytes) (i : Nat) (b : UInt8) (h : y[i]? = some b) (hb : hexVal b = none) :
    parseHexAux acc y = none := by
  induction y generalizing acc i with
  | nil => simp at h
  | cons x y ih =>
    cases i with
    | zero =>
      simp only [List.getElem?_cons_zero, Option.some.injEq] at h
      subst h
      simp only [parseHexAux, hb]
    | succ i =>
      simp only [List.getElem?_cons_succ] at h
      simp only [parseHexAux]
      cases hexVal x with
      | none => rfl
      | some d => exact ih _ i h

theorem parseHex_bad (y : Bytes) (i : Nat) (b : UInt8) (h : y[i]? = some b) (hb : hexVal b = none) : parseHex y = none := by
  unfold parseHex
  split
  · rfl
  · exact parseHexAux_bad 0 y i b h hb

theorem readAt_get (f : Bytes) (o n i : Nat) (h : i < n) : (readAt f o n)[i]? = f[o + i]? := by
  unfold readAt
  rw [List.getElem?_take_of_lt h, List.getElem?_drop]

/-- a block whose last size field ends in a zero byte cannot be read -/
theorem readBlock_bad (fm : Fmt) (f : Bytes) (o : Nat) (mx : Option Nat) (hw : 0 < fm.hexW)
    (h : f[o + (3 * fm.hexW + 3)]? = some 0 ∨ f.length ≤ o + (3 * fm.hexW + 3)) :
    ∃ x, readBlock fm f 0 o mx = x ∧ (x = .ok none ∨ ∃ e, x = .error e) := by
  refine ⟨_, rfl, ?_⟩
  unfold readBlock
  simp only [Int.add_zero, Int.toNat_natCast]
  rw [if_neg (by omega)]
  by_cases h1 : readAt f o fm.blockHeader = []
  · rw [if_pos h1]; exact .inl rfl
  rw [if_neg h1]
  by_cases h2 : (readAt f o fm.blockHeader).length ≠ fm.blockHeader
  · rw [if_pos h2]; exact .inr ⟨_, rfl⟩
  rw [if_neg h2]
  have hbh : fm.blockHeader = 3 * fm.hexW + 7 := rfl
  have hlen : fm.blockHeader ≤ f.length - o := by
    have := readAt_len f o fm.blockHeader
    have h2' := Decidable.not_not.mp h2
    omega
  replace h := h.resolve_right (by omega)
  have h3 : parseHex (readAt (readAt f o fm.blockHeader) (2 * fm.hexW + 4) fm.hexW) = none := by
    apply parseHex_bad _ (fm.hexW - 1) 0 _ (by decide)
    rw [readAt_get _ _ _ _ (by omega), readAt_get _ _ _ _ (by omega), ← h]
    congr 1; omega
  rw [h3]
  right
  cases parseHex (readAt (readAt f o fm.blockHeader) 2 fm.hexW) with
  | none => exact ⟨_, rfl⟩
  | some a => cases parseHex (readAt (readAt f o fm.blockHeader) (fm.hexW + 3) fm.hexW) <;> exact ⟨_, rfl⟩

/-- a block header without its last three bytes is read like a complete one -/
theorem readBlock_almost (fm : Fmt) (hw : 2 ≤ fm.hexW) (f : Bytes) (o : Nat) (d b n : Nat)
    (hlen : o + fm.blockHeader ≤ f.length)
    (hs : StoredAt f o ((fm.blockHdr d b n).take (3 * fm.hexW + 4)))
    (hd : d < 16 ^ fm.hexW) (hb : b < 16 ^ fm.hexW) (hn : n < 16 ^ fm.hexW) (mx : Option Nat) :
    readBlock fm f 0 o mx = .ok (some ⟨d, b, n, readAt f (o + fm.blockHeader) (min b (effMax mx b d))⟩) := by
  have hbh : fm.blockHeader = 3 * fm.hexW + 7 := rfl
  have hbl : (readAt f o fm.blockHeader).length = fm.blockHeader := by rw [readAt_len]; omega
  have hr := hs.read
  rw [List.length_take, blockHdr_length, Nat.min_eq_left (by omega)] at hr
  have key : ∀ x, x + fm.hexW ≤ 3 * fm.hexW + 4 →
      readAt (readAt f o fm.blockHeader) x fm.hexW = readAt (fm.blockHdr d b n) x fm.hexW := by
    intro x hx
    apply List.ext_getElem?
    intro i
    by_cases hi : i < fm.hexW
    · rw [readAt_get _ _ _ _ hi, readAt_get _ _ _ _ hi, readAt_get _ _ _ _ (by omega)]
      have := congrArg (fun l => l[x + i]?) hr
      rw [readAt_get _ _ _ _ (by omega), List.getElem?_take_of_lt (by omega)] at this
      exact this
    · have h1 : (readAt (readAt f o fm.blockHeader) x fm.hexW).length ≤ i := by
        rw [readAt_len]; omega
      have h2 : (readAt (fm.blockHdr d b n) x fm.hexW).length ≤ i := by
        rw [readAt_len]; omega
      rw [List.getElem?_eq_none h1, List.getElem?_eq_none h2]
  unfold readBlock
  simp only [Int.add_zero, Int.toNat_natCast]
  rw [if_neg (by omega), if_neg (by intro hc; rw [hc] at hbl; simp at hbl; omega), if_neg (by rw [hbl]; simp),
    key 2 (by omega), key (fm.hexW + 3) (by omega), key (2 * fm.hexW + 4) (by omega),
    blockHdr_field1, blockHdr_field2, blockHdr_field3, hexField fm d hw hd, hexField fm b hw hb, hexField fm n hw hn]

/-- reading at or beyond the end of the file -/
theorem readBlock_end (fm : Fmt) (f : Bytes) (o : Nat) (mx : Option Nat) (h : f.length ≤ o) :
    readBlock fm f 0 o mx = .ok none := by
  unfold readBlock
  simp only [Int.add_zero, Int.toNat_natCast]
  rw [if_neg (by omega), if_pos]
  unfold readAt
  rw [List.drop_eq_nil_of_le h]; rfl

/-- a header cut off by the end of the file -/
theorem readBlock_short (fm : Fmt) (f : Bytes) (o : Nat) (mx : Option Nat) (h : f.length < o + fm.blockHeader) :
    readBlock fm f 0 o mx = .ok none ∨ ∃ e, readBlock fm f 0 o mx = .error e := by
  unfold readBlock
  simp only [Int.add_zero, Int.toNat_natCast]
  rw [if_neg (by omega)]
  by_cases h1 : readAt f o fm.blockHeader = []
  · rw [if_pos h1]; exact .inl rfl
  have hbh : fm.blockHeader = 3 * fm.hexW + 7 := rfl
  rw [if_neg h1, if_pos (by rw [readAt_len]; omega)]
  exact .inr ⟨_, rfl⟩

theorem readDoc_bad (fm : Fmt) (fuel : Nat) (f : Bytes) (o m : Int)
    (h : readBlock fm f 0 o none = .ok none ∨ ∃ e, readBlock fm f 0 o none = .error e) :
    ∃ e, readDoc fm fuel f 0 o m = .error e := by
  unfold readDoc
  rcases h with h | ⟨e, h⟩ <;> rw [h]
  · exact ⟨_, rfl⟩
  · exact ⟨_, rfl⟩

/-! ### A table of contents that is not complete -/

theorem leBytes_trunc (w n i : Nat) (h : i ≤ w) :
    (leBytes w n).take i ++ List.replicate (w - i) 0 = leBytes w (n % 256 ^ i) := by
  induction w generalizing n i with
  | zero =>
    obtain rfl : i = 0 := by omega
    rfl
  | succ w ih =>
    cases i with
    | zero =>
      have h0 : ∀ w, leBytes w 0 = List.replicate w 0 := by
        intro w
        induction w with
        | zero => rfl
        | succ w ih => rw [leBytes, ih, List.replicate_succ]; rfl
      simp only [List.take_zero, List.nil_append, Nat.pow_zero, Nat.mod_one, Nat.sub_zero, h0]
    | succ i =>
      have := ih (n / 256) i (by omega)
      rw [leBytes, leBytes, List.take_succ_cons, List.cons_append, Nat.add_sub_add_right, this]
      have e1 : n % 256 ^ (i + 1) % 256 = n % 256 :=
        Nat.mod_mod_of_dvd _ (by rw [Nat.pow_succ, Nat.mul_comm]; exact Nat.dvd_mul_right _ _)
      have e2 : n % 256 ^ (i + 1) / 256 = n / 256 % 256 ^ i := by
        rw [Nat.pow_succ, Nat.mul_comm, Nat.mod_mul_right_div_self]
      rw [e1, e2]

/-- words that are no part of an end marker are one piece -/
theorem bsplit_safe (fm : Fmt) (wf : fm.WF) (ns : List Nat) (acc : Bytes) (h : ∀ n ∈ ns, n < 2 ^ (8 * fm.idxW - 1) - 1) :
    ∃ last, bsplitAux (leBytes fm.idxW fm.marker) acc (ns.flatMap (leBytes fm.idxW)) = [last] := by
  induction ns generalizing acc with
  | nil => exact ⟨acc.reverse, by simp [bsplitAux]⟩
  | cons n ns ih =>
    have s := safeWord_of_lt fm wf n (h n (by simp))
    rw [List.flatMap_cons, bsplitAux_skip _ _ _ _ (fun k hk => no_match_in_word fm wf _ _ s k (by simpa using hk))]
    exact ih _ (fun m hm => h m (by simp [hm]))

theorem zeros_words (w k : Nat) : (List.replicate k 0).flatMap (leBytes w) = List.replicate (k * w) 0 := by
  have h0 : leBytes w 0 = List.replicate w 0 := by
    have := leBytes_trunc w 0 0 (by omega)
    simpa using this.symm
  induction k with
  | zero => simp
  | succ k ih =>
    rw [List.replicate_succ, List.flatMap_cons, ih, h0, List.replicate_append_replicate]
    congr 1
    rw [Nat.succ_mul]; omega

/-- the table of contents with only its first `j` bytes, the rest still zero -/
theorem bsplit_cut (fm : Fmt) (wf : fm.WF) (l : List (Nat × Nat)) (j : Nat)
    (h : ∀ p ∈ l, p.1 < 2 ^ (8 * fm.idxW - 1) - 1 ∧ p.2 < 2 ^ (8 * fm.idxW - 1) - 1) :
    ∃ last, bsplit (leBytes fm.idxW fm.marker)
        ((tocBytes fm l).take j ++ List.replicate ((tocBytes fm l).length - j) 0) =
      (l.take (j / (3 * fm.idxW))).map (fun p => leBytes fm.idxW p.1 ++ leBytes fm.idxW p.2) ++ [last] := by
  have hw := wf.idx
  unfold bsplit
  induction l generalizing j with
  | nil => exact ⟨[], by simp [tocBytes, bsplitAux]⟩
  | cons p l ih =>
    have hp := h p (by simp)
    have e : tocBytes fm (p :: l) = leBytes fm.idxW p.1 ++ leBytes fm.idxW p.2 ++
      leBytes fm.idxW fm.marker ++ tocBytes fm l := by simp [tocBytes]
    have el : (leBytes fm.idxW p.1 ++ leBytes fm.idxW p.2 ++ leBytes fm.idxW fm.marker).length = 3 * fm.idxW := by
      simp; omega
    by_cases hj : 3 * fm.idxW ≤ j
    · obtain ⟨last, hl⟩ := ih (j - 3 * fm.idxW) (fun q hq => h q (by simp [hq]))
      refine ⟨last, ?_⟩
      have hq : j / (3 * fm.idxW) = (j - 3 * fm.idxW) / (3 * fm.idxW) + 1 := by
        rw [Nat.div_eq_sub_div (by omega) hj]
      rw [hq, List.take_succ_cons, List.map_cons, List.cons_append, ← hl, e, List.take_append, el,
        List.take_of_length_le (by rw [el]; exact hj), List.length_append, el]
      have s1 := safeWord_of_lt fm wf p.1 hp.1
      have s2 := safeWord_of_lt fm wf p.2 hp.2
      have e2 : 3 * fm.idxW + (tocBytes fm l).length - j = (tocBytes fm l).length - (j - 3 * fm.idxW) := by omega
      rw [e2]
      simp only [List.append_assoc]
      rw [bsplitAux_skip _ _ _ _ (fun k hk => no_match_in_word fm wf _ _ s1 k (by simpa using hk)),
        bsplitAux_skip _ _ _ _ (fun k hk => no_match_in_word fm wf _ _ s2 k (by simpa using hk)),
        bsplitAux_match _ _ _ (by
          intro hc
          have := leBytes_length fm.idxW fm.marker
          rw [hc] at this; simp at this; omega)]
      simp
    · have hq : j / (3 * fm.idxW) = 0 := Nat.div_eq_of_lt (by omega)
      simp only [hq, List.take_zero, List.map_nil, List.nil_append]
      have hlz : (tocBytes fm l).length = (3 * l.length) * fm.idxW := by
        rw [tocBytes_length, Nat.mul_assoc, Nat.mul_assoc, Nat.mul_comm fm.idxW]
      -- the three words of the cut entry
      have hcut : ∃ a b c, (leBytes fm.idxW p.1 ++ leBytes fm.idxW p.2 ++ leBytes fm.idxW fm.marker).take j ++
          List.replicate (3 * fm.idxW - j) 0 = leBytes fm.idxW a ++ leBytes fm.idxW b ++ leBytes fm.idxW c ∧
          a < 2 ^ (8 * fm.idxW - 1) - 1 ∧ b < 2 ^ (8 * fm.idxW - 1) - 1 ∧ c < 2 ^ (8 * fm.idxW - 1) - 1 := by
        have hmod : ∀ n i, n < 2 ^ (8 * fm.idxW - 1) - 1 → n % 256 ^ i < 2 ^ (8 * fm.idxW - 1) - 1 :=
          fun n i hn => Nat.lt_of_le_of_lt (Nat.mod_le _ _) hn
        have hmk : ∀ i, i < fm.idxW → fm.marker % 256 ^ i < 2 ^ (8 * fm.idxW - 1) - 1 := by
          intro i hi
          have h1 : fm.marker % 256 ^ i < 256 ^ i := Nat.mod_lt _ (Nat.pow_pos (by decide))
          have h2 : 256 ^ i ≤ 256 ^ (fm.idxW - 1) := Nat.pow_le_pow_right (by decide) (by omega)
          have h3 : (256 : Nat) ^ (fm.idxW - 1) * 128 = 2 ^ (8 * fm.idxW - 1) := by
            rw [show (256 : Nat) = 2 ^ 8 from rfl, show (128 : Nat) = 2 ^ 7 from rfl, ← Nat.pow_mul, ← Nat.pow_add]
            congr 1; omega
          have h4 : 0 < 256 ^ (fm.idxW - 1) := Nat.pow_pos (by decide)
          omega
        have hz0 : ∀ m, List.replicate fm.idxW (0:UInt8) = leBytes fm.idxW (m % 256 ^ 0) := by
          intro m
          have := leBytes_trunc fm.idxW m 0 (by omega)
          simpa using this
        have hpos : 0 < 2 ^ (8 * fm.idxW - 1) - 1 := by omega
        by_cases h1 : j ≤ fm.idxW
        · refine ⟨p.1 % 256 ^ j, 0 % 256 ^ 0, 0 % 256 ^ 0, ?_, hmod _ _ hp.1, hmod _ _ hpos, hmod _ _ hpos⟩
          rw [← leBytes_trunc _ _ _ h1, ← hz0, List.append_assoc, List.take_append_of_le_length (by simpa using h1)]
          simp only [List.append_assoc, List.append_cancel_left_eq, List.replicate_append_replicate]
          congr 1; omega
        · by_cases h2 : j ≤ 2 * fm.idxW
          · refine ⟨p.1, p.2 % 256 ^ (j - fm.idxW), 0 % 256 ^ 0, ?_, hp.1, hmod _ _ hp.2, hmod _ _ hpos⟩
            rw [← leBytes_trunc _ _ _ (by omega : j - fm.idxW ≤ fm.idxW), ← hz0, List.append_assoc, List.take_append,
              List.take_of_length_le (by simp; omega), List.take_append_of_le_length (by simp; omega), leBytes_length]
            simp only [List.append_assoc, List.append_cancel_left_eq, List.replicate_append_replicate]
            congr 1; omega
          · refine ⟨p.1, p.2, fm.marker % 256 ^ (j - 2 * fm.idxW), ?_, hp.1, hp.2, hmk _ (by omega)⟩
            rw [← leBytes_trunc _ _ _ (by omega : j - 2 * fm.idxW ≤ fm.idxW), List.take_append,
              List.take_of_length_le (by simp; omega), List.length_append, leBytes_length, leBytes_length]
            simp only [List.append_assoc, List.append_cancel_left_eq]
            congr 1
            · congr 1; omega
            · congr 1; omega
      obtain ⟨a, b, c, hc, ha, hb, hcc⟩ := hcut
      have heq : (tocBytes fm (p :: l)).take j ++ List.replicate ((tocBytes fm (p :: l)).length - j) 0 =
          ([a, b, c] ++ List.replicate (3 * l.length) 0).flatMap (leBytes fm.idxW) := by
        rw [List.flatMap_append, zeros_words]
        have e3 : ([a, b, c] : List Nat).flatMap (leBytes fm.idxW) = leBytes fm.idxW a ++ leBytes fm.idxW b ++ leBytes fm.idxW c := by
          simp
        rw [e3, ← hc, e, List.take_append_of_le_length (by rw [el]; omega), List.length_append, el, hlz]
        simp only [List.append_assoc, List.replicate_append_replicate]
        congr 2; omega
      rw [heq]
      apply bsplit_safe fm wf
      intro n hn
      rw [List.mem_append] at hn
      rcases hn with hn | hn
      · simp only [List.mem_cons, List.not_mem_nil, or_false] at hn
        rcases hn with rfl | rfl | rfl <;> assumption
      · rw [List.eq_of_mem_replicate hn]; omega

end V8.Crash
