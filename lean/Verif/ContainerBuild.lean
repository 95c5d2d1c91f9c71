import Verif.ContainerToc
/- Whole-container build followed by read (helper lemmas for Props/Container). -/
namespace V8

theorem mem_tocOf_lt (fm : Fmt) (base : Nat) (es : List Entry) :
    ∀ p ∈ tocOf fm base es, p.1 + fm.blockHeader ≤ base + (docsOf fm es).length ∧
      p.2 + fm.blockHeader ≤ base + (docsOf fm es).length := by
  induction es generalizing base with
  | nil => simp [tocOf]
  | cons e es ih =>
    intro p hp
    have hlA : (attrBlock fm e).length = fm.blockHeader + max 0 e.attr.length := blockBytes_length _ _ _ _ _
    have hlD : (dataBlock fm e).length = fm.blockHeader + max defaultBlock e.content.length :=
      blockBytes_length _ _ _ _ _
    rw [docsOf_cons]
    simp only [List.length_append]
    simp only [tocOf, List.mem_cons] at hp
    rcases hp with rfl | hp
    · simp only; omega
    · have := ih _ p hp; omega

theorem tocOf_length (fm : Fmt) (base : Nat) (es : List Entry) : (tocOf fm base es).length = es.length := by
  induction es generalizing base with
  | nil => rfl
  | cons e es ih => simp [tocOf, ih]

theorem docsOf_length_ge (fm : Fmt) (es : List Entry) : 512 * es.length ≤ (docsOf fm es).length := by
  induction es with
  | nil => simp
  | cons e es ih =>
    have hlD : (dataBlock fm e).length = fm.blockHeader + max defaultBlock e.content.length :=
      blockBytes_length _ _ _ _ _
    rw [docsOf_cons]
    simp only [List.length_append, List.length_cons, defaultBlock] at *
    omega

def headerBytes (fm : Fmt) (count : Nat) : Bytes :=
  leBytes fm.idxW fm.marker ++ leBytes 4 defaultBlock ++ leBytes 4 count ++ leBytes 4 0

theorem headerBytes_length (fm : Fmt) (count : Nat) : (headerBytes fm count).length = fm.headerSize := by
  simp [headerBytes, Fmt.headerSize]

theorem writeHeader_fresh (fm : Fmt) (count : Nat) (w : WFile) (h : writeHeader fm ⟨[], 0⟩ 0 count = .ok w) :
    w = ⟨headerBytes fm count ++ List.replicate (fm.indexBlock + fm.blockHeader) 0,
      (headerBytes fm count ++ List.replicate (fm.indexBlock + fm.blockHeader) 0).length⟩ := by
  unfold writeHeader at h
  split at h
  · injection h with h
    rw [← h]
    simp only [WFile.seek]
    rw [write_write _ _ _ (by simp)]
    simp only [WFile.write]
    have := writeAt_end [] (leBytes fm.idxW fm.marker ++ leBytes 4 defaultBlock ++ leBytes 4 count ++ leBytes 4 0 ++
      List.replicate (fm.indexBlock + fm.blockHeader) 0)
    simp only [List.length_nil] at this
    rw [this]
    simp [headerBytes]
  · cases h

/-- the shape of a freshly built container -/
theorem build_shape (fm : Fmt) (wf : fm.WF) (deflate : Bytes → Bytes) (listing : List Entry) (w' : WFile)
    (h : buildContainer fm deflate ⟨[], 0⟩ listing true 0 = .ok w') :
    let es := listing.mergeSort entryLe
    (∀ e ∈ es, e.Plain) ∧ es ≠ [] ∧
    ∃ T X, w'.bytes = headerBytes fm es.length ++ T ++ docsOf fm es ++ X ∧
      T.length = fm.indexBlock + fm.blockHeader ∧
      (let l := tocOf fm (fm.headerSize + (fm.indexBlock + fm.blockHeader)) es
       (∀ p ∈ l, p.1 < fm.idxLimit ∧ p.2 < fm.idxLimit) ∧
       (w'.bytes.length < 2 ^ (8 * fm.idxW - 1) ∨ (tocBytes fm l).length ≤ fm.indexBlock →
        ∀ fuel, (tocBytes fm l).length ≤ fuel →
          ∃ full, readDoc fm fuel w'.bytes 0 fm.headerSize fm.indexBlock =
            .ok ⟨full, (tocBytes fm l).length, tocBytes fm l⟩ ∧
            (w'.bytes.length : Int) ≤ fm.headerSize + full + (docsOf fm es).length)) := by
  intro es
  unfold buildContainer at h
  simp only at h
  cases hwh : writeHeader fm ⟨[], 0⟩ 0 (listing.mergeSort entryLe).length with
  | error e => rw [hwh] at h; cases h
  | ok w =>
    rw [hwh] at h
    have hw := writeHeader_fresh fm _ w hwh
    simp only [Bool.not_true] at h
    cases ha : addAll fm deflate false (listing.mergeSort entryLe) (w, []) with
    | error e => rw [ha] at h; cases h
    | ok r =>
      obtain ⟨w2, toc⟩ := r
      rw [ha] at h
      simp only at h
      obtain ⟨h1, h2, h3⟩ := addAll_ok fm deflate _ w w2 [] toc (by rw [hw]) ha
      have hwb : w.bytes = headerBytes fm es.length ++ List.replicate (fm.indexBlock + fm.blockHeader) 0 := by
        rw [hw]
      have hwl : w.bytes.length = fm.headerSize + (fm.indexBlock + fm.blockHeader) := by
        rw [hwb, List.length_append, headerBytes_length, List.length_replicate]
      rw [h3, List.nil_append, hwl] at h
      obtain ⟨g1, g2, T, X, g3, g4, g5⟩ := writeToc_shape fm wf w2 w' (headerBytes fm es.length)
        (List.replicate (fm.indexBlock + fm.blockHeader) 0) (docsOf fm es)
        (tocOf fm (fm.headerSize + (fm.indexBlock + fm.blockHeader)) es)
        (by rw [h2, hwb]) (headerBytes_length _ _) (by simp) h
      refine ⟨h1, ?_, T, X, g3, by rw [g4]; simp, g2, g5⟩
      intro hc
      rw [hc] at g1
      exact g1 rfl

theorem toc_fuel (fm : Fmt) (wf : fm.WF) (base : Nat) (es : List Entry) :
    (tocBytes fm (tocOf fm base es)).length ≤ (docsOf fm es).length := by
  rw [tocBytes_length, tocOf_length]
  have h1 := docsOf_length_ge fm es
  have h2 := wf.idxSmall
  have : 3 * fm.idxW * es.length ≤ 512 * es.length := Nat.mul_le_mul_right _ (by omega)
  omega

/-- reading a built container up to its entries -/
theorem readContainer_entries (fm : Fmt) (wf : fm.WF) (f : Bytes) (n fuel : Nat) (full : Int) (l : List (Nat × Nat))
    (hhdr : StoredAt f 0 (headerBytes fm n))
    (hd : readDoc fm fuel f 0 fm.headerSize fm.indexBlock = .ok ⟨full, (tocBytes fm l).length, tocBytes fm l⟩)
    (hoff : ∀ p ∈ l, p.1 < 2 ^ (8 * fm.idxW - 1) - 1 ∧ p.2 < 2 ^ (8 * fm.idxW - 1) - 1) :
    readContainer fm fuel f 0 =
      match readEntries fm fuel f 0 512 (l.map fun p => ((p.1 : Int), (p.2 : Int))) (fm.headerSize + full, []) with
      | .error e => .error e
      | .ok (size, files) => .ok ⟨size, files⟩ := by
  have hbuff : readAt f 0 fm.headerSize = headerBytes fm n := by
    have := hhdr.read; rwa [headerBytes_length] at this
  unfold readContainer
  rw [if_neg (by omega)]
  simp only [Int.toNat_zero, hbuff, headerBytes_length]
  rw [if_neg (by simp)]
  have hdf : leInt32 (((headerBytes fm n).drop fm.idxW).take 4) = 512 := by
    have : (headerBytes fm n).drop fm.idxW = leBytes 4 defaultBlock ++ (leBytes 4 n ++ leBytes 4 0) := by
      unfold headerBytes
      rw [List.append_assoc, List.append_assoc, List.drop_append, List.drop_eq_nil_of_le (by simp)]
      simp
    rw [this, List.take_append_of_le_length (by simp), List.take_of_length_le (by simp)]
    decide
  rw [hdf, if_neg (by decide), hd]
  simp only
  rw [bsplit_toc fm wf _ hoff, List.dropLast_append_cons, List.dropLast_singleton, List.append_nil,
    mapExcept_toc fm wf _ hoff]
  rfl

theorem read_build (fm : Fmt) (wf : fm.WF) (deflate : Bytes → Bytes) (listing : List Entry) (w' : WFile)
    (h : buildContainer fm deflate ⟨[], 0⟩ listing true 0 = .ok w')
    (hlen : w'.bytes.length < 2 ^ (8 * fm.idxW - 1))
    (hn : ∀ e ∈ listing, GoodName e.name) (hnd : (listing.map (·.name)).Nodup)
    (fuel : Nat) (hf : w'.bytes.length ≤ fuel) :
    ∃ r, readContainer fm fuel w'.bytes 0 = .ok r ∧ (w'.bytes.length : Int) ≤ r.size ∧
      r.files = (listing.mergeSort entryLe).map Entry.asRead := by
  obtain ⟨hpl, hne, T, X, hb, hT, hlim, htoc⟩ := build_shape fm wf deflate listing w' h
  generalize hes : listing.mergeSort entryLe = es at *
  have hperm : es.Perm listing := hes ▸ List.mergeSort_perm listing entryLe
  have hbl := congrArg List.length hb
  simp only [List.length_append, headerBytes_length, hT] at hbl
  obtain ⟨full, hd, hfull⟩ := htoc (.inl hlen) fuel (by
    have := toc_fuel fm wf (fm.headerSize + (fm.indexBlock + fm.blockHeader)) es
    omega)
  have hbh : fm.blockHeader ≥ 7 := by simp [Fmt.blockHeader]
  have hoff : ∀ p ∈ tocOf fm (fm.headerSize + (fm.indexBlock + fm.blockHeader)) es,
      p.1 < 2 ^ (8 * fm.idxW - 1) - 1 ∧ p.2 < 2 ^ (8 * fm.idxW - 1) - 1 := by
    intro p hp
    have := mem_tocOf_lt fm _ es p hp
    omega
  have hmk : fm.marker < 16 ^ fm.hexW := Nat.lt_of_lt_of_le wf.markerHi wf.capHex
  have hcap : 2 ^ (8 * fm.idxW - 1) - 1 < 16 ^ fm.hexW := Nat.lt_of_le_of_lt wf.markerLo hmk
  have hhdr : StoredAt w'.bytes 0 (headerBytes fm es.length) := ⟨[], T ++ docsOf fm es ++ X, by rw [hb]; simp, rfl⟩
  have hdocs : StoredAt w'.bytes (fm.headerSize + (fm.indexBlock + fm.blockHeader) + 0) (docsOf fm es) :=
    ⟨headerBytes fm es.length ++ T, X, hb, by simp [headerBytes_length, hT]⟩
  have hre := readEntries_docs fm wf w'.bytes fuel es 0 (fm.headerSize + (fm.indexBlock + fm.blockHeader))
    (fm.headerSize + full) [] hdocs (by omega) hpl (fun e he => hn e (hperm.subset he))
    ((hperm.map _).nodup_iff.mpr hnd) (by simp)
  refine ⟨⟨fm.headerSize + full + (docsOf fm es).length, es.map Entry.asRead⟩, ?_, hfull, rfl⟩
  rw [readContainer_entries fm wf _ _ fuel full _ hhdr hd hoff]
  rw [show ((0:Nat):Int) = 0 from rfl] at hre
  rw [hre]
  simp

/-- total size of the documents of a container -/
theorem docsOf_length (fm : Fmt) (es : List Entry) (h : ∀ e ∈ es, e.Plain) :
    (docsOf fm es).length ≤ (es.map fun e => 2 * fm.blockHeader + 24 + 4 * e.name.length + 512 + e.content.length).sum := by
  induction es with
  | nil => simp [docsOf]
  | cons e es ih =>
    have hlA : (attrBlock fm e).length = fm.blockHeader + max 0 e.attr.length := blockBytes_length _ _ _ _ _
    have hlD : (dataBlock fm e).length = fm.blockHeader + max defaultBlock e.content.length :=
      blockBytes_length _ _ _ _ _
    have hu : ∀ n : List Char, (utf16le n).length ≤ 4 * n.length := by
      intro n
      unfold utf16le
      induction n with
      | nil => simp
      | cons c n ih =>
        rw [List.flatMap_cons, List.flatMap_append, List.length_append, List.length_cons]
        have : ((utf16Units c).flatMap le16).length ≤ 4 := by
          unfold utf16Units; split <;> simp [le16]
        omega
    have hp := h e (by simp)
    have hA : e.attr.length ≤ 24 + 4 * e.name.length := by
      unfold Entry.Plain at hp
      cases hnode : e.node with
      | dir => rw [hnode] at hp; exact hp.elim
      | file ct mt d =>
        simp only [Entry.attr, hnode, attrRaw, List.length_append, leBytes_length, List.length_cons, List.length_nil]
        have := hu e.name; omega
    rw [docsOf_cons]
    have := ih (fun x hx => h x (by simp [hx]))
    simp only [List.length_append, List.map_cons, List.sum_cons, defaultBlock] at *
    omega

theorem writeToc_ok (fm : Fmt) (wf : fm.WF) (w : WFile) (l : List (Nat × Nat)) (hne : l ≠ [])
    (h : ∀ p ∈ l, p.1 < fm.idxLimit ∧ p.2 < fm.idxLimit) (hw : fm.headerSize + fm.indexBlock + fm.blockHeader ≤ w.bytes.length) :
    ∃ w', writeToc fm w (l.map fun p => (p.1, some p.2)) = .ok w' ∧
      w'.bytes.length ≤ w.bytes.length + (tocBytes fm l).length * 2 + 2 * (fm.indexBlock + fm.blockHeader) := by
  have htl : (tocBytes fm l).length = 3 * fm.idxW * l.length := tocBytes_length fm l
  have htpos : 0 < (tocBytes fm l).length := by
    rw [htl]
    have := wf.idx
    have : 0 < l.length := List.length_pos_iff.mpr hne
    apply Nat.mul_pos <;> omega
  have hbl := wf.block
  have hbh : fm.blockHeader ≥ 7 := by simp [Fmt.blockHeader]
  unfold writeToc
  rw [if_neg (by simpa using hne), packToc_of fm l h]
  generalize tocBytes fm l = t at *
  have hwl : fm.headerSize ≤ w.bytes.length := by omega
  simp only
  have inside : ∀ b : Bytes, b.length ≤ fm.indexBlock + fm.blockHeader →
      ((w.seek fm.headerSize).write b).bytes.length = w.bytes.length := by
    intro b hb
    simp only [WFile.write, WFile.seek]
    rw [writeAt_inside _ _ _ hwl]
    simp only [List.length_append, List.length_take, List.length_drop]
    omega
  split
  · rename_i hone
    have hle : t.length ≤ fm.indexBlock := (ceilDiv_one htpos (by omega)).mp hone
    refine ⟨_, rfl, ?_⟩
    rw [writeBlock_some _ _ _ _ _ _ _ hwl]
    simp only
    rw [inside _ (by rw [blockBytes_length]; omega)]
    omega
  · rename_i hone
    refine ⟨_, rfl, ?_⟩
    rw [writeBlock_some _ _ _ _ _ _ _ hwl]
    simp only
    have := tocTail_eq fm (ceilDiv t.length fm.indexBlock - 1) (((w.seek fm.headerSize).write
      (blockBytes fm (t.take fm.indexBlock) t.length fm.indexBlock (nextOf fm (some w.bytes.length)))).seek
        ((w.seek fm.headerSize).write
      (blockBytes fm (t.take fm.indexBlock) t.length fm.indexBlock (nextOf fm (some w.bytes.length)))).bytes.length)
      w.bytes.length (t.drop fm.indexBlock) rfl
    simp only at this
    rw [this, List.length_append, tailBlocks_length]
    have : (((w.seek fm.headerSize).write
      (blockBytes fm (t.take fm.indexBlock) t.length fm.indexBlock (nextOf fm (some w.bytes.length)))).seek
        ((w.seek fm.headerSize).write
      (blockBytes fm (t.take fm.indexBlock) t.length fm.indexBlock (nextOf fm (some w.bytes.length)))).bytes.length).bytes.length
        = w.bytes.length := inside (blockBytes fm (t.take fm.indexBlock) t.length fm.indexBlock
          (nextOf fm (some w.bytes.length))) (by
          rw [blockBytes_length]; simp only [List.length_take]; omega)
    rw [this]
    obtain ⟨c1, c2, c3⟩ := ceilDiv_spec htpos (by omega : 0 < fm.indexBlock)
    generalize ceilDiv t.length fm.indexBlock = c at *
    obtain ⟨k, rfl⟩ : ∃ k, c = k + 1 := ⟨c - 1, by omega⟩
    simp only [Nat.add_sub_cancel] at *
    have h5 : k * fm.blockHeader ≤ k * fm.indexBlock := Nat.mul_le_mul_left _ (by omega)
    rw [Nat.succ_mul, Nat.mul_add]
    omega

/-- building succeeds as soon as the offsets fit -/
theorem build_ok_of_offsets (fm : Fmt) (wf : fm.WF) (deflate : Bytes → Bytes) (listing : List Entry)
    (hne : listing ≠ []) (hpl : ∀ e ∈ listing, e.Plain) (hcnt : listing.length < 2 ^ 31)
    (hoff : ∀ p ∈ tocOf fm (fm.headerSize + (fm.indexBlock + fm.blockHeader)) (listing.mergeSort entryLe),
      p.1 < fm.idxLimit ∧ p.2 < fm.idxLimit) :
    ∃ w, buildContainer fm deflate ⟨[], 0⟩ listing true 0 = .ok w := by
  have hperm : (listing.mergeSort entryLe).Perm listing := List.mergeSort_perm _ _
  have hcount : (listing.mergeSort entryLe).length = listing.length := by simp
  have hne2 : listing.mergeSort entryLe ≠ [] := by
    intro hc; rw [hc] at hcount; exact hne (List.eq_nil_of_length_eq_zero hcount.symm)
  have hpl' : ∀ e ∈ listing.mergeSort entryLe, e.Plain := fun e he => hpl e (hperm.subset he)
  unfold buildContainer
  simp only [Bool.not_true]
  generalize hes : listing.mergeSort entryLe = es at *
  have hwh : writeHeader fm ⟨[], 0⟩ 0 es.length = .ok ⟨headerBytes fm es.length ++ List.replicate (fm.indexBlock + fm.blockHeader) 0,
      (headerBytes fm es.length ++ List.replicate (fm.indexBlock + fm.blockHeader) 0).length⟩ := by
    have : ∃ w, writeHeader fm ⟨[], 0⟩ 0 es.length = .ok w := by
      unfold writeHeader; rw [if_pos (by omega)]; exact ⟨_, rfl⟩
    obtain ⟨w, hw⟩ := this
    rw [hw, writeHeader_fresh fm _ w hw]
  rw [hwh]
  simp only
  obtain ⟨⟨w2, toc⟩, ha⟩ := addAll_plain fm deflate es ⟨headerBytes fm es.length ++ List.replicate (fm.indexBlock + fm.blockHeader) 0,
      (headerBytes fm es.length ++ List.replicate (fm.indexBlock + fm.blockHeader) 0).length⟩ [] rfl hpl'
  obtain ⟨_, h2, h3⟩ := addAll_ok fm deflate _ _ w2 [] toc rfl ha
  rw [ha]
  simp only
  simp only [List.length_append, headerBytes_length, List.length_replicate, List.nil_append] at h3
  have hw2 : w2.bytes.length = fm.headerSize + (fm.indexBlock + fm.blockHeader) + (docsOf fm es).length := by
    rw [h2]; simp only [List.length_append, headerBytes_length, List.length_replicate]
  rw [h3]
  obtain ⟨w', hw', _⟩ := writeToc_ok fm wf w2 _
    (by
      intro hc
      have := tocOf_length fm (fm.headerSize + (fm.indexBlock + fm.blockHeader)) es
      rw [hc] at this
      exact hne2 (List.eq_nil_of_length_eq_zero this.symm)) hoff (by omega)
  exact ⟨w', hw'⟩

theorem attr_length_le (e : Entry) : e.attr.length ≤ 24 + 4 * e.name.length := by
  have hu : ∀ n : List Char, (utf16le n).length ≤ 4 * n.length := by
    intro n
    unfold utf16le
    induction n with
    | nil => simp
    | cons c n ih =>
      rw [List.flatMap_cons, List.flatMap_append, List.length_append, List.length_cons]
      have : ((utf16Units c).flatMap le16).length ≤ 4 := by
        unfold utf16Units; split <;> simp [le16]
      omega
  cases hnode : e.node with
  | dir => simp [Entry.attr, hnode]
  | file ct mt d =>
    simp only [Entry.attr, hnode, attrRaw, List.length_append, leBytes_length, List.length_cons, List.length_nil]
    have := hu e.name; omega

end V8
