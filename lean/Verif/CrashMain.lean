import Verif.CrashPhases
import Verif.ContainerBuild
/- Reading a build that was stopped while its table was written (helper lemmas for Props/Crash). -/
namespace V8.Crash

theorem tocOf_take (fm : Fmt) (m base : Nat) (es : List Entry) : tocOf fm base (es.take m) = (tocOf fm base es).take m := by
  induction es generalizing m base with
  | nil => simp [tocOf]
  | cons e es ih =>
    cases m with
    | zero => simp [tocOf]
    | succ m => simp only [List.take_succ_cons, tocOf, ih]

theorem docsOf_take (fm : Fmt) (m : Nat) (es : List Entry) :
    docsOf fm es = docsOf fm (es.take m) ++ docsOf fm (es.drop m) := by
  unfold docsOf
  rw [← List.flatMap_append, List.take_append_drop]

/-- a container whose table was written up to its byte `j` is read as far as the table goes -/
theorem cut_read (fm : Fmt) (wf : fm.WF) (g : Bytes) (n fuel j : Nat) (full : Int) (tl : Nat) (es : List Entry)
    (hhdr : StoredAt g 0 (headerBytes fm n))
    (hd : readDoc fm fuel g 0 fm.headerSize fm.indexBlock =
      .ok ⟨full, tl, (tocBytes fm (tocOf fm (fm.headerSize + (fm.indexBlock + fm.blockHeader)) es)).take j ++
        List.replicate ((tocBytes fm (tocOf fm (fm.headerSize + (fm.indexBlock + fm.blockHeader)) es)).length - j) 0⟩)
    (hdocs : StoredAt g (fm.headerSize + (fm.indexBlock + fm.blockHeader)) (docsOf fm es))
    (hlen : g.length < 2 ^ (8 * fm.idxW - 1))
    (hpl : ∀ e ∈ es, e.Plain) (hn : ∀ e ∈ es, GoodName e.name) (hnd : (es.map (·.name)).Nodup) :
    readContainer fm fuel g 0 = .ok ⟨fm.headerSize + full + ((docsOf fm (es.take (j / (3 * fm.idxW)))).length : Nat),
      (es.take (j / (3 * fm.idxW))).map Entry.asRead⟩ := by
  have hle := hdocs.le
  have hbh : fm.blockHeader ≥ 7 := by simp [Fmt.blockHeader]
  have hmk : fm.marker < 16 ^ fm.hexW := Nat.lt_of_lt_of_le wf.markerHi wf.capHex
  have hcap : 2 ^ (8 * fm.idxW - 1) - 1 < 16 ^ fm.hexW := Nat.lt_of_le_of_lt wf.markerLo hmk
  have hoff : ∀ p ∈ tocOf fm (fm.headerSize + (fm.indexBlock + fm.blockHeader)) es,
      p.1 < 2 ^ (8 * fm.idxW - 1) - 1 ∧ p.2 < 2 ^ (8 * fm.idxW - 1) - 1 := by
    intro p hp
    have := mem_tocOf_lt fm _ es p hp
    omega
  obtain ⟨last, hsp⟩ := bsplit_cut fm wf _ j hoff
  rw [readContainer_doc fm g n fuel hhdr, hd]
  simp only
  rw [hsp, List.dropLast_append_cons, List.dropLast_singleton, List.append_nil,
    mapExcept_toc fm wf _ (fun p hp => hoff p (List.mem_of_mem_take hp))]
  simp only
  generalize j / (3 * fm.idxW) = m
  rw [docsOf_take fm m es] at hdocs
  have hre := readEntries_docs fm wf g fuel (es.take m) 0 (fm.headerSize + (fm.indexBlock + fm.blockHeader))
    (fm.headerSize + full) [] hdocs.left (by omega) (fun e he => hpl e (List.mem_of_mem_take he))
    (fun e he => hn e (List.mem_of_mem_take he))
    (by rw [List.map_take]; exact hnd.sublist (List.take_sublist _ _)) (by simp)
  rw [tocOf_take, show ((0:Nat):Int) = 0 from rfl] at hre
  rw [hre]
  simp

theorem writeAt_end (f x : Bytes) (n : Nat) (h : f.length = n) : writeAt f n x = f ++ x := by
  subst h
  have h0 : f.drop (f.length + x.length) = [] := List.drop_eq_nil_of_le (by omega)
  rw [writeAt_inside _ _ _ (Nat.le_refl _), h0, List.take_of_length_le (Nat.le_refl _), List.append_nil]

/-- the states in which a build of a container can be stopped -/
inductive State (es : List Entry) (N : Nat) (g : Bytes) : Prop
  /-- nothing is there yet -/
  | empty : g = [] → State es N g
  /-- before the table: header, reserved space and documents as far as they came -/
  | early (D : Bytes) (k : Nat) : g = (startBytes fmt32 es.length ++ D).take k → State es N g
  /-- within a table of one block -/
  | short (k : Nat) (t : Bytes) : t = tocBytes fmt32 (tocOf fmt32 559 es) → t.length ≤ 512 → 0 < t.length →
      (∀ e ∈ es, e.Plain) → k ≤ 31 + t.length → N = 559 + (docsOf fmt32 es).length →
      g = writeAt (startBytes fmt32 es.length ++ docsOf fmt32 es) 16 ((blockBytes fmt32 t t.length 0 fmt32.marker).take k) →
      State es N g
  /-- within the first block of a longer table -/
  | first (k i : Nat) (t : Bytes) : t = tocBytes fmt32 (tocOf fmt32 559 es) → 512 < t.length →
      t.length ≤ (i + 2) * 512 → (i + 1) * 512 < t.length →
      k ≤ 31 + 512 → N = 559 + (docsOf fmt32 es).length + (i + 2) * 543 →
      g = writeAt (startBytes fmt32 es.length ++ docsOf fmt32 es) 16
        ((blockBytes fmt32 (t.take 512) t.length 512 (559 + (docsOf fmt32 es).length)).take k) →
      State es N g
  /-- within the further blocks of a longer table -/
  | tail (k i : Nat) (t : Bytes) : t = tocBytes fmt32 (tocOf fmt32 559 es) → 512 < t.length →
      t.length ≤ (i + 2) * 512 → (i + 1) * 512 < t.length → (∀ e ∈ es, e.Plain) →
      N = 559 + (docsOf fmt32 es).length + (i + 2) * 543 →
      g = writeAt (startBytes fmt32 es.length ++ docsOf fmt32 es) 16
          (blockBytes fmt32 (t.take 512) t.length 512 (559 + (docsOf fmt32 es).length)) ++
        (tailBlocks fmt32 (i + 1) (559 + (docsOf fmt32 es).length) (t.drop 512)).take k →
      State es N g

theorem state_of_stopped (listing : List Entry) (g : Bytes) (h : Stopped (buildFileL listing).1.log g) :
    State (listing.mergeSort entryLe) (buildFileL listing).1.w.bytes.length g := by
  have hrec := recorded_build fmt32 listing
  rcases h with h | h
  · exact .empty h
  have hl := buildL_log fmt32 fmt32_wf listing
  simp only at hl
  unfold buildFileL at h ⊢
  unfold Recorded at hrec
  rw [← hrec]
  generalize (buildL fmt32 ⟨⟨[], 0⟩, []⟩ listing 0).1.log = log at *
  generalize listing.mergeSort entryLe = es at *
  rcases hl with hl | ⟨A, D, hA, hl⟩
  · obtain ⟨done, p, b, rest, k, h1, _⟩ := h
    rw [hl] at h1
    cases done <;> cases h1
  have hAr : replay [] A = startBytes fmt32 es.length ++ D := by
    rw [replay_cont [] 0 A _ (Nat.le_refl _) hA, writeAt_end [] _ 0 rfl]
    simp
  have early : StoppedFrom [] A g → State es (replay [] log).length g := by
    intro hs
    obtain ⟨k, h1, h2⟩ := stopped_cont [] 0 A _ g (Nat.le_refl _) hA hs
    refine .early D k ?_
    rw [h2, writeAt_end [] _ 0 rfl]
    simp
  rcases hl with hl | ⟨B, C, _, hl, hD, hpl, hne, hlim, htoc⟩
  · exact early (hl ▸ h)
  have hb559 : fmt32.headerSize + (fmt32.indexBlock + fmt32.blockHeader) = 559 := rfl
  rw [hb559] at htoc
  rw [hl, List.append_assoc] at h
  rcases stopped_append [] A (B ++ C) g h with h | h
  · exact early h
  rw [hAr] at h
  have hsl := startBytes_length fmt32 es.length
  rw [hb559] at hsl
  have hin : 16 ≤ (startBytes fmt32 es.length ++ D).length := by rw [List.length_append]; omega
  have hrl : (replay [] log) = replay (startBytes fmt32 es.length ++ D) (B ++ C) := by
    rw [hl, List.append_assoc, replay_append, hAr]
  have htpos : 0 < (tocBytes fmt32 (tocOf fmt32 559 es)).length := by
    rw [tocBytes_length]
    have : 0 < (tocOf fmt32 559 es).length := List.length_pos_iff.mpr hne
    exact Nat.mul_pos (by decide) this
  subst hD
  rcases htoc with ⟨t1, t2, rfl⟩ | ⟨t1, t2, i, t3, t4, t5⟩
  · rw [List.append_nil] at h hrl
    obtain ⟨k, k1, k2⟩ := stopped_cont _ 16 B _ g hin t2 h
    have hbl : (blockBytes fmt32 (tocBytes fmt32 (tocOf fmt32 559 es)) (tocBytes fmt32 (tocOf fmt32 559 es)).length 0 fmt32.marker).length =
        31 + (tocBytes fmt32 (tocOf fmt32 559 es)).length := by
      rw [blockBytes_length]; show 31 + _ = _; omega
    refine .short k _ rfl t1 htpos hpl ?_ ?_ k2
    · rw [hbl] at k1; exact k1
    · rw [hrl, replay_cont _ 16 B _ hin t2, writeAt_inside _ _ _ hin]
      simp only [List.length_append, List.length_take, List.length_drop]
      have : fmt32.indexBlock = 512 := rfl
      omega
  · have hbl : (blockBytes fmt32 ((tocBytes fmt32 (tocOf fmt32 559 es)).take 512) (tocBytes fmt32 (tocOf fmt32 559 es)).length 512
        (559 + (docsOf fmt32 es).length)).length = 31 + 512 := by
      rw [blockBytes_length, List.length_take]; show 31 + _ = _; omega
    replace t2 : Cont 16 B (blockBytes fmt32 ((tocBytes fmt32 (tocOf fmt32 559 es)).take 512) (tocBytes fmt32 (tocOf fmt32 559 es)).length 512
        (559 + (docsOf fmt32 es).length)) := t2
    have hBr := replay_cont _ 16 B _ hin t2
    have hBl : (replay (startBytes fmt32 es.length ++ docsOf fmt32 es) B).length = 559 + (docsOf fmt32 es).length := by
      rw [hBr, writeAt_inside _ _ _ hin]
      simp only [List.length_append, List.length_take, List.length_drop, hbl]
      omega
    have htl := tailBlocks_length fmt32 (i + 1) (559 + (docsOf fmt32 es).length) ((tocBytes fmt32 (tocOf fmt32 559 es)).drop 512)
    replace htl : (tailBlocks fmt32 (i + 1) (559 + (docsOf fmt32 es).length) ((tocBytes fmt32 (tocOf fmt32 559 es)).drop 512)).length = (i + 2) * 543 := htl
    have hN : (replay [] log).length = 559 + (docsOf fmt32 es).length + (i + 2) * 543 := by
      rw [hrl, replay_append, replay_cont _ (559 + (docsOf fmt32 es).length) C _ (by rw [hBl]; exact Nat.le_refl _) t5,
        writeAt_inside _ _ _ (by rw [hBl]; exact Nat.le_refl _)]
      simp only [List.length_append, List.length_take, List.length_drop, hBl]
      show _ + (tailBlocks fmt32 (i + 1) (559 + (docsOf fmt32 es).length) ((tocBytes fmt32 (tocOf fmt32 559 es)).drop 512)).length + (_ - (_ + (tailBlocks fmt32 (i + 1) (559 + (docsOf fmt32 es).length) ((tocBytes fmt32 (tocOf fmt32 559 es)).drop 512)).length)) = _
      omega
    rcases stopped_append _ B C g h with h | h
    · obtain ⟨k, k1, k2⟩ := stopped_cont _ 16 B _ g hin t2 h
      refine .first k i _ rfl t1 t3 t4 ?_ hN k2
      rw [hbl] at k1; exact k1
    · obtain ⟨k, k1, k2⟩ := stopped_cont _ (559 + (docsOf fmt32 es).length) C _ g (by rw [hBl]; exact Nat.le_refl _) t5 h
      refine .tail k i _ rfl t1 t3 t4 hpl hN ?_
      rw [k2, writeAt_end _ _ _ hBl, hBr]
      rfl

end V8.Crash
