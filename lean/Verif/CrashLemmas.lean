import Verif.Crash
import Verif.ContainerBuild
/- The record of a build: what it writes and in which order (helper lemmas for Props/Crash). -/
namespace V8.Crash

/-! ### The recorded functions write what the model of the container writes -/

theorem copyL_w (n : Nat) (hn : 0 < n) (l : LFile) (src : Bytes) :
    (copyL n hn l src).w = copyChunks n hn l.w src := by
  fun_induction copyL n hn l src with
  | case1 l => rw [copyChunks, dif_pos rfl]
  | case2 l src hs ih => rw [copyChunks, dif_neg hs, ih]; rfl

theorem writeBlockL_w (fm : Fmt) (l : LFile) (data : Bytes) (d m : Nat) (o nx : Option Nat) :
    (writeBlockL fm l data d m o nx).1.w = (writeBlock fm l.w data d m o nx).1 ∧
      (writeBlockL fm l data d m o nx).2 = (writeBlock fm l.w data d m o nx).2 := by
  cases o with
  | none =>
    simp only [writeBlockL, writeBlock, placeL, offsetL, LFile.write, copyL_w, and_self]
  | some o =>
    simp only [writeBlockL, writeBlock, placeL, offsetL, LFile.write, LFile.seek, copyL_w, and_self]

/-- result of a recorded function compared with the one of the model -/
def Same {α : Type} (r : LFile × Except Err α) (m : Except Err (WFile × α)) : Prop :=
  match r.2, m with
  | .ok a, .ok (w, b) => r.1.w = w ∧ a = b
  | .error e, .error e' => e = e'
  | _, _ => False

theorem addFileL_same (fm : Fmt) (deflate : Bytes → Bytes) (l : LFile) (name : List Char) (ct mt : Nat) (data : Bytes) :
    Same (addFileL fm l name ct mt data) (addFile fm deflate false l.w name ct mt data) := by
  unfold addFileL addFile
  cases attrBytes ct mt name with
  | error e => exact rfl
  | ok ab =>
    have h1 := writeBlockL_w fm l ab ab.length 0 none none
    have h2 := writeBlockL_w fm (writeBlockL fm l ab ab.length 0 none none).1 data data.length defaultBlock none none
    simp only [writeDocL, writeDoc, Bool.false_eq_true, if_false]
    rw [h1.1] at h2
    refine ⟨h2.1, ?_⟩
    rw [h1.2, h2.2]

theorem addAllL_same (fm : Fmt) (deflate : Bytes → Bytes) (es : List Entry) (l : LFile) (toc : List TocEntry) :
    Same (addAllL fm es (l, toc)) (addAll fm deflate false es (l.w, toc)) := by
  induction es generalizing l toc with
  | nil => exact ⟨rfl, rfl⟩
  | cons e es ih =>
    cases hn : e.node with
    | dir => simp only [addAllL, addAll, hn]; exact rfl
    | file ct mt data =>
      have h := addFileL_same fm deflate l e.name ct mt data
      simp only [addAllL, addAll, hn]
      rcases hl : addFileL fm l e.name ct mt data with ⟨l1, er | t⟩
      · rw [hl] at h
        cases hm : addFile fm deflate false l.w e.name ct mt data with
        | error e' => rw [hm] at h; exact h
        | ok r => rw [hm] at h; exact h.elim
      · rw [hl] at h
        cases hm : addFile fm deflate false l.w e.name ct mt data with
        | error e' => rw [hm] at h; exact h.elim
        | ok r =>
          obtain ⟨w1, t1⟩ := r
          rw [hm] at h
          obtain ⟨ha, hb⟩ := h
          replace ha : l1.w = w1 := ha
          subst ha
          replace hb : t = t1 := hb
          subst hb
          exact ih l1 _

theorem tocTailL_w (fm : Fmt) (k : Nat) (l : LFile) (nbo : Nat) (rest : Bytes) :
    (tocTailL fm k l nbo rest).1.w = (tocTail fm k l.w nbo rest).1 ∧
      (tocTailL fm k l nbo rest).2 = (tocTail fm k l.w nbo rest).2 := by
  induction k generalizing l nbo rest with
  | zero => exact ⟨rfl, rfl⟩
  | succ k ih =>
    simp only [tocTailL, tocTail]
    have h := ih (writeBlockL fm l (rest.take fm.indexBlock) 0 fm.indexBlock none (some (nbo + fm.indexBlock + fm.blockHeader))).1
      (nbo + fm.indexBlock + fm.blockHeader) (rest.drop fm.indexBlock)
    rw [(writeBlockL_w ..).1] at h
    exact h

theorem writeTocL_same (fm : Fmt) (l : LFile) (toc : List TocEntry) :
    (∀ w, writeToc fm l.w toc = .ok w ↔ ((writeTocL fm l toc).2 = .ok () ∧ (writeTocL fm l toc).1.w = w)) ∧
    (∀ e, writeToc fm l.w toc = .error e ↔ (writeTocL fm l toc).2 = .error e) := by
  unfold writeToc writeTocL
  by_cases h : toc = []
  · simp only [if_pos h]
    exact ⟨fun w => ⟨fun h => (by cases h), fun h => (by cases h.1)⟩, fun e => ⟨fun h => (by cases h; rfl), fun h => (by cases h; rfl)⟩⟩
  · simp only [if_neg h]
    cases packToc fm toc with
    | error e =>
      exact ⟨fun w => ⟨fun h => (by cases h), fun h => (by cases h.1)⟩, fun e => ⟨fun h => (by cases h; rfl), fun h => (by cases h; rfl)⟩⟩
    | ok t =>
      simp only
      by_cases h1 : ceilDiv t.length fm.indexBlock = 1
      · simp only [if_pos h1, writeBlockL_w]
        exact ⟨fun w => ⟨fun h => ⟨trivial, Except.ok.inj h⟩, fun h => congrArg _ h.2⟩, fun e => ⟨fun h => (by cases h), fun h => (by cases h)⟩⟩
      · simp only [if_neg h1, writeBlockL_w, tocTailL_w, LFile.seek]
        exact ⟨fun w => ⟨fun h => ⟨trivial, Except.ok.inj h⟩, fun h => congrArg _ h.2⟩, fun e => ⟨fun h => (by cases h), fun h => (by cases h)⟩⟩

/-! ### Consecutive writes -/

/-- the calls `ops` write the bytes `b` one after the other from position `p` on -/
def Cont : Nat → List (Nat × Bytes) → Bytes → Prop
  | _, [], b => b = []
  | p, (q, x) :: rest, b => q = p ∧ ∃ b', b = x ++ b' ∧ Cont (p + x.length) rest b'

theorem cont_append (p : Nat) (a a' : List (Nat × Bytes)) (b b' : Bytes) (h : Cont p a b)
    (h' : Cont (p + b.length) a' b') : Cont p (a ++ a') (b ++ b') := by
  induction a generalizing p b with
  | nil => cases h; simpa using h'
  | cons q a ih =>
    obtain ⟨q, x⟩ := q
    obtain ⟨rfl, c, rfl, hc⟩ := h
    refine ⟨rfl, c ++ b', by simp, ih _ _ hc ?_⟩
    simpa [Nat.add_assoc] using h'

theorem cont_one (p : Nat) (b : Bytes) : Cont p [(p, b)] b := ⟨rfl, [], by simp, rfl⟩

theorem replay_append (f : Bytes) (a b : List (Nat × Bytes)) : replay f (a ++ b) = replay (replay f a) b := by
  induction a generalizing f with
  | nil => rfl
  | cons x a ih => exact ih _

theorem replay_cont (f : Bytes) (p : Nat) (ops : List (Nat × Bytes)) (b : Bytes) (hp : p ≤ f.length) (h : Cont p ops b) :
    replay f ops = writeAt f p b := by
  induction ops generalizing f p b with
  | nil => cases h; simp [replay, writeAt]
  | cons q a ih =>
    obtain ⟨q, x⟩ := q
    obtain ⟨rfl, c, rfl, hc⟩ := h
    rw [replay, ih _ _ _ ?_ hc, writeAt_writeAt _ _ _ _ hp]
    rw [writeAt_inside _ _ _ hp]
    simp only [List.length_append, List.length_take]; omega

/-- stopped within these calls, made on the file `f` -/
def StoppedFrom (f : Bytes) (log : List (Nat × Bytes)) (g : Bytes) : Prop :=
  ∃ done p b rest k, log = done ++ (p, b) :: rest ∧ k ≤ b.length ∧ g = writeAt (replay f done) p (b.take k)

theorem stopped_append (f : Bytes) (a c : List (Nat × Bytes)) (g : Bytes) (h : StoppedFrom f (a ++ c) g) :
    StoppedFrom f a g ∨ StoppedFrom (replay f a) c g := by
  obtain ⟨done, p, b, rest, k, hl, hk, hg⟩ := h
  rcases List.append_eq_append_iff.mp hl with ⟨x, h1, h2⟩ | ⟨x, h1, h2⟩
  · subst h1
    exact .inr ⟨x, p, b, rest, k, h2, hk, by rw [hg, replay_append]⟩
  · cases x with
    | nil =>
      right
      simp only [List.nil_append] at h2
      rw [List.append_nil] at h1
      exact ⟨[], p, b, rest, k, by rw [← h2]; rfl, hk, by rw [hg, h1]; rfl⟩
    | cons y x =>
      simp only [List.cons_append, List.cons.injEq] at h2
      obtain ⟨rfl, h2⟩ := h2
      exact .inl ⟨done, p, b, x, k, h1, hk, hg⟩

theorem stopped_cont (f : Bytes) (p : Nat) (ops : List (Nat × Bytes)) (b g : Bytes) (hp : p ≤ f.length) (h : Cont p ops b)
    (hs : StoppedFrom f ops g) : ∃ k, k ≤ b.length ∧ g = writeAt f p (b.take k) := by
  obtain ⟨done, q, x, rest, k, hl, hk, hg⟩ := hs
  subst hl
  induction done generalizing f p b with
  | nil =>
    obtain ⟨rfl, c, rfl, _⟩ := h
    refine ⟨k, by simp only [List.length_append]; omega, ?_⟩
    rw [hg, List.take_append_of_le_length hk]; rfl
  | cons y done ih =>
    obtain ⟨y, z⟩ := y
    obtain ⟨rfl, c, rfl, hc⟩ := h
    obtain ⟨k', h1, h2⟩ := ih (writeAt f y z) (y + z.length) c (by
      rw [writeAt_inside _ _ _ hp]
      simp only [List.length_append, List.length_take]; omega) hg hc
    refine ⟨z.length + k', by simp only [List.length_append]; omega, ?_⟩
    rw [h2, writeAt_writeAt _ _ _ _ hp, List.take_append]
    congr 2
    · rw [List.take_of_length_le (by omega)]
    · congr 1; omega

/-- every cut of consecutive writes is a state in which the process can be stopped -/
theorem cont_stopped (f : Bytes) (p : Nat) (ops : List (Nat × Bytes)) (b : Bytes) (hp : p ≤ f.length) (h : Cont p ops b)
    (hne : ops ≠ []) (k : Nat) (hk : k ≤ b.length) : StoppedFrom f ops (writeAt f p (b.take k)) := by
  induction ops generalizing f p b k with
  | nil => exact absurd rfl hne
  | cons y ops ih =>
    obtain ⟨y, z⟩ := y
    obtain ⟨rfl, c, rfl, hc⟩ := h
    by_cases hkz : k ≤ z.length
    · exact ⟨[], y, z, ops, k, rfl, hkz, by rw [List.take_append_of_le_length hkz]; rfl⟩
    · have hops : ops ≠ [] := by
        intro h0
        subst h0
        cases hc
        simp only [List.append_nil] at hk
        omega
      obtain ⟨done, q, x, rest, j, h1, h2, h3⟩ := ih (writeAt f y z) (y + z.length) c (by
        rw [writeAt_inside _ _ _ hp]
        simp only [List.length_append, List.length_take]; omega) hc hops (k - z.length) (by
          rw [List.length_append] at hk; omega)
      refine ⟨(y, z) :: done, q, x, rest, j, by rw [h1]; rfl, h2, ?_⟩
      rw [show replay f ((y, z) :: done) = replay (writeAt f y z) done from rfl, ← h3, writeAt_writeAt _ _ _ _ hp,
        List.take_append, List.take_of_length_le (by omega)]

/-- stopped after more calls -/
theorem stopped_later (f : Bytes) (a c d : List (Nat × Bytes)) (g : Bytes) (h : StoppedFrom (replay f a) c g) :
    StoppedFrom f (a ++ c ++ d) g := by
  obtain ⟨done, p, b, rest, k, hl, hk, hg⟩ := h
  exact ⟨a ++ done, p, b, rest ++ d, k, by rw [hl]; simp, hk, by rw [hg, replay_append]⟩

/-! ### What one step adds to the record -/

/-- from `l` to `l'` the bytes `b` were written one after the other at the position of `l` -/
def Grows (l l' : LFile) (b : Bytes) : Prop :=
  ∃ ops, l'.log = l.log ++ ops ∧ Cont l.w.pos ops b ∧ l'.w = l.w.write b

theorem grows_write (l : LFile) (b : Bytes) : Grows l (l.write b) b := ⟨_, rfl, cont_one _ _, rfl⟩

theorem grows_nil (l : LFile) : Grows l l [] := ⟨[], by simp, rfl, (write_nil _).symm⟩

theorem Grows.trans {l l' l'' : LFile} {b b' : Bytes} (hp : l.w.pos ≤ l.w.bytes.length) (h : Grows l l' b)
    (h' : Grows l' l'' b') : Grows l l'' (b ++ b') := by
  obtain ⟨o, h1, h2, h3⟩ := h
  obtain ⟨o', h1', h2', h3'⟩ := h'
  refine ⟨o ++ o', by rw [h1', h1]; simp, cont_append _ _ _ _ _ h2 ?_, ?_⟩
  · rw [h3] at h2'; exact h2'
  · rw [h3', h3, write_write _ _ _ hp]

theorem Grows.pos {l l' : LFile} {b : Bytes} (hp : l.w.pos ≤ l.w.bytes.length) (h : Grows l l' b) :
    l'.w.pos ≤ l'.w.bytes.length := by
  obtain ⟨o, h1, h2, h3⟩ := h
  rw [h3]; exact write_pos_le _ _ hp

theorem Grows.atEnd {l l' : LFile} {b : Bytes} (hp : l.w.pos = l.w.bytes.length) (h : Grows l l' b) :
    l'.w.pos = l'.w.bytes.length ∧ l'.w.bytes = l.w.bytes ++ b := by
  obtain ⟨o, h1, h2, h3⟩ := h
  rw [h3]
  simp only [WFile.write, hp, writeAt_end, List.length_append, and_self]

theorem copyL_grows (n : Nat) (hn : 0 < n) (l : LFile) (src : Bytes) (hp : l.w.pos ≤ l.w.bytes.length) :
    Grows l (copyL n hn l src) src := by
  fun_induction copyL n hn l src with
  | case1 l => exact grows_nil l
  | case2 l src hs ih =>
    have h1 := grows_write l (src.take n)
    have h2 := h1.trans hp (ih (h1.pos hp))
    rw [List.take_append_drop] at h2
    exact h2

theorem writeBlockL_grows (fm : Fmt) (l : LFile) (data : Bytes) (d m : Nat) (o nx : Option Nat)
    (hp : (placeL l o).w.pos ≤ (placeL l o).w.bytes.length) :
    Grows (placeL l o) (writeBlockL fm l data d m o nx).1 (blockBytes fm data d m (nextOf fm nx)) := by
  have h1 := grows_write (placeL l o) (fm.blockHdr d (max m data.length) (nextOf fm nx))
  have h2 := copyL_grows 512 (by decide) _ data (h1.pos hp)
  have h3 := grows_write (copyL 512 (by decide)
    ((placeL l o).write (fm.blockHdr d (max m data.length) (nextOf fm nx))) data)
    (List.replicate (max m data.length - data.length) 0)
  have h := h1.trans hp (h2.trans (h1.pos hp) h3)
  exact h

theorem addFileL_grows (fm : Fmt) (l : LFile) (e : Entry) (ct mt : Nat) (data : Bytes) (hp : l.w.pos = l.w.bytes.length)
    (l' : LFile) (x : Except Err TocEntry) (h : addFileL fm l e.name ct mt data = (l', x)) :
    (∃ er, x = .error er ∧ l' = l) ∨ ((∃ t, x = .ok t) ∧ ∃ b, Grows l l' b) := by
  unfold addFileL at h
  cases ha : attrBytes ct mt e.name with
  | error er => rw [ha] at h; cases h; exact .inl ⟨er, rfl, rfl⟩
  | ok ab =>
    rw [ha] at h
    simp only [Prod.mk.injEq] at h
    obtain ⟨rfl, rfl⟩ := h
    right
    refine ⟨⟨_, rfl⟩, ?_⟩
    have h1 := writeBlockL_grows fm l ab ab.length 0 none none (Nat.le_of_eq hp)
    have h2 := writeBlockL_grows fm (writeDocL fm l ab 0).1 data data.length defaultBlock none none (h1.pos (Nat.le_of_eq hp))
    exact ⟨_, h1.trans (Nat.le_of_eq hp) h2⟩

theorem addAllL_grows (fm : Fmt) (es : List Entry) (l : LFile) (toc : List TocEntry) (hp : l.w.pos = l.w.bytes.length) :
    ∃ b, Grows l (addAllL fm es (l, toc)).1 b := by
  induction es generalizing l toc with
  | nil => exact ⟨[], grows_nil l⟩
  | cons e es ih =>
    simp only [addAllL]
    cases hn : e.node with
    | dir => exact ⟨[], grows_nil l⟩
    | file ct mt data =>
      simp only
      rcases hl : addFileL fm l e.name ct mt data with ⟨l1, x⟩
      rcases addFileL_grows fm l e ct mt data hp l1 x hl with ⟨er, rfl, rfl⟩ | ⟨⟨t, rfl⟩, b, hb⟩
      · exact ⟨[], grows_nil _⟩
      · obtain ⟨b', hb'⟩ := ih l1 (toc ++ [t]) (hb.atEnd hp).1
        exact ⟨b ++ b', hb.trans (Nat.le_of_eq hp) hb'⟩

theorem tocTailL_grows (fm : Fmt) (k : Nat) (l : LFile) (nbo : Nat) (rest : Bytes) (hp : l.w.pos = l.w.bytes.length) :
    Grows l (writeBlockL fm (tocTailL fm k l nbo rest).1 ((tocTailL fm k l nbo rest).2.take fm.indexBlock) 0 fm.indexBlock none none).1
      (tailBlocks fm k nbo rest) := by
  induction k generalizing l nbo rest with
  | zero =>
    have := writeBlockL_grows fm l (rest.take fm.indexBlock) 0 fm.indexBlock none none (Nat.le_of_eq hp)
    exact this
  | succ k ih =>
    have h1 := writeBlockL_grows fm l (rest.take fm.indexBlock) 0 fm.indexBlock none
      (some (nbo + fm.indexBlock + fm.blockHeader)) (Nat.le_of_eq hp)
    have h2 := ih (writeBlockL fm l (rest.take fm.indexBlock) 0 fm.indexBlock none
      (some (nbo + fm.indexBlock + fm.blockHeader))).1 (nbo + fm.indexBlock + fm.blockHeader) (rest.drop fm.indexBlock) (h1.atEnd hp).1
    have h3 := h1.trans (Nat.le_of_eq hp) h2
    have : nextOf fm (some (nbo + fm.indexBlock + fm.blockHeader)) = nbo + fm.indexBlock + fm.blockHeader := by
      have : fm.blockHeader ≠ 0 := by simp [Fmt.blockHeader]
      simp only [nextOf]; rw [if_neg (by omega)]
    rw [this] at h3
    exact h3

/-! ### The record of a whole build -/

/-- what follows the documents: the table of contents in place, and further blocks of a long one at the end -/
def TocOps (fm : Fmt) (N : Nat) (t : Bytes) (B C : List (Nat × Bytes)) : Prop :=
  (t.length ≤ fm.indexBlock ∧ Cont fm.headerSize B (blockBytes fm t t.length 0 fm.marker) ∧ C = []) ∨
  (fm.indexBlock < t.length ∧ Cont fm.headerSize B (blockBytes fm (t.take fm.indexBlock) t.length fm.indexBlock N) ∧
    ∃ k, t.length ≤ (k + 2) * fm.indexBlock ∧ (k + 1) * fm.indexBlock < t.length ∧ Cont N C (tailBlocks fm (k + 1) N (t.drop fm.indexBlock)))

/-- the reserved start of the file -/
def startBytes (fm : Fmt) (n : Nat) : Bytes :=
  headerBytes fm n ++ List.replicate (fm.indexBlock + fm.blockHeader) 0

theorem startBytes_length (fm : Fmt) (n : Nat) :
    (startBytes fm n).length = fm.headerSize + (fm.indexBlock + fm.blockHeader) := by
  simp [startBytes, headerBytes_length]

theorem writeTocL_log (fm : Fmt) (wf : fm.WF) (l : LFile) (prs : List (Nat × Nat))
    (hw : fm.headerSize + fm.indexBlock + fm.blockHeader ≤ l.w.bytes.length) :
    (writeTocL fm l (prs.map fun p => (p.1, some p.2))).1.log = l.log ∨
    ((writeTocL fm l (prs.map fun p => (p.1, some p.2))).2 = .ok () ∧
     prs ≠ [] ∧ (∀ p ∈ prs, p.1 < fm.idxLimit ∧ p.2 < fm.idxLimit) ∧
     ∃ B C, (writeTocL fm l (prs.map fun p => (p.1, some p.2))).1.log = l.log ++ B ++ C ∧
      TocOps fm l.w.bytes.length (tocBytes fm prs) B C) := by
  unfold writeTocL
  by_cases hne : prs = []
  · subst hne; exact .inl rfl
  rw [if_neg (by simpa using hne)]
  cases hpk : packToc fm (prs.map fun p => (p.1, some p.2)) with
  | error e => exact .inl rfl
  | ok t =>
    obtain ⟨rfl, hlim⟩ := packToc_ok fm prs t hpk
    have hbl := wf.block
    have hbh : fm.blockHeader ≥ 7 := by simp [Fmt.blockHeader]
    have hib : 0 < fm.indexBlock := by omega
    have htpos : 0 < (tocBytes fm prs).length := by
      rw [tocBytes_length]
      have := wf.idx
      have : 0 < prs.length := List.length_pos_iff.mpr hne
      apply Nat.mul_pos <;> omega
    right
    refine ⟨by simp only; split <;> rfl, hne, hlim, ?_⟩
    generalize tocBytes fm prs = t at *
    have hs : (placeL l (some fm.headerSize)).w.pos ≤ (placeL l (some fm.headerSize)).w.bytes.length := by
      simp only [placeL, LFile.seek, WFile.seek]; omega
    by_cases hone : ceilDiv t.length fm.indexBlock = 1
    · simp only [if_pos hone]
      obtain ⟨ops, h1, h2, h3⟩ := writeBlockL_grows fm l t t.length 0 (some fm.headerSize) none hs
      exact ⟨ops, [], by rw [h1]; simp [placeL, LFile.seek], .inl ⟨(ceilDiv_one htpos hib).mp hone, h2, rfl⟩⟩
    · simp only [if_neg hone]
      have hgt : fm.indexBlock < t.length := by
        rcases Nat.lt_or_ge fm.indexBlock t.length with h1 | h1
        · exact h1
        · exact absurd ((ceilDiv_one htpos hib).mpr h1) hone
      obtain ⟨c1, c2, c3⟩ := ceilDiv_spec htpos hib
      generalize hc : ceilDiv t.length fm.indexBlock = c at *
      obtain ⟨k, rfl⟩ : ∃ k, c = k + 2 := ⟨c - 2, by omega⟩
      have hg := writeBlockL_grows fm l (t.take fm.indexBlock) t.length fm.indexBlock (some fm.headerSize)
        (some l.w.bytes.length) hs
      have hnx : nextOf fm (some l.w.bytes.length) = l.w.bytes.length := by
        simp only [nextOf]; rw [if_neg (by omega)]
      rw [hnx] at hg
      generalize hl1 : (writeBlockL fm l (t.take fm.indexBlock) t.length fm.indexBlock (some fm.headerSize)
        (some l.w.bytes.length)).1 = l1 at *
      obtain ⟨ops, h1, h2, h3⟩ := hg
      have hlen : l1.w.bytes.length = l.w.bytes.length := by
        rw [h3]
        simp only [WFile.write, placeL, LFile.seek, WFile.seek]
        rw [writeAt_inside _ _ _ (by omega), blockBytes_pad]
        simp only [List.length_append, List.length_take, List.length_drop, blockHdr_length, padChunk_length]
        omega
      obtain ⟨ops', g1, g2, g3⟩ := tocTailL_grows fm (k + 1) (l1.seek l1.w.bytes.length) l.w.bytes.length (t.drop fm.indexBlock)
        (by simp [LFile.seek, WFile.seek])
      refine ⟨ops, ops', ?_, .inr ⟨hgt, h2, k, c2, c3, ?_⟩⟩
      · have e : k + 2 - 1 = k + 1 := rfl
        rw [e, g1]
        simp only [LFile.seek, h1, placeL]
      · have : (l1.seek l1.w.bytes.length).w.pos = l.w.bytes.length := hlen
        rw [this] at g2
        exact g2

/-- the record of a build: the header, the reserved space and the documents from the start on; then the table of
contents, unless the build failed -/
theorem buildL_log (fm : Fmt) (wf : fm.WF) (listing : List Entry) :
    let es := listing.mergeSort entryLe
    let log := (buildL fm ⟨⟨[], 0⟩, []⟩ listing 0).1.log
    log = [] ∨ ∃ A D, Cont 0 A (startBytes fm es.length ++ D) ∧
      (log = A ∨
       ∃ B C, (buildL fm ⟨⟨[], 0⟩, []⟩ listing 0).2 = .ok () ∧ log = A ++ B ++ C ∧ D = docsOf fm es ∧ (∀ e ∈ es, e.Plain) ∧
        (let prs := tocOf fm (fm.headerSize + (fm.indexBlock + fm.blockHeader)) es
         prs ≠ [] ∧ (∀ p ∈ prs, p.1 < fm.idxLimit ∧ p.2 < fm.idxLimit) ∧
          TocOps fm (fm.headerSize + (fm.indexBlock + fm.blockHeader) + D.length) (tocBytes fm prs) B C)) := by
  intro es log
  simp only [log, buildL]
  unfold writeHeaderL
  by_cases hc : ¬ (listing.mergeSort entryLe).length < 2 ^ 31
  · rw [if_neg hc]; exact .inl rfl
  rw [if_pos (Decidable.not_not.mp hc)]
  right
  simp only [filesL]
  have hs0 : ((⟨⟨[], 0⟩, []⟩ : LFile).seek 0).w.pos ≤ ((⟨⟨[], 0⟩, []⟩ : LFile).seek 0).w.bytes.length := Nat.le_refl _
  have g1 := grows_write ((⟨⟨[], 0⟩, []⟩ : LFile).seek 0) (headerBytes fm es.length)
  have g2 := grows_write (((⟨⟨[], 0⟩, []⟩ : LFile).seek 0).write (headerBytes fm es.length))
    (List.replicate (fm.indexBlock + fm.blockHeader) 0)
  have g : Grows ((⟨⟨[], 0⟩, []⟩ : LFile).seek 0)
      ((((⟨⟨[], 0⟩, []⟩ : LFile).seek 0).write (headerBytes fm es.length)).write
        (List.replicate (fm.indexBlock + fm.blockHeader) 0)) (startBytes fm es.length) := g1.trans hs0 g2
  have e0 : ((((⟨⟨[], 0⟩, []⟩ : LFile).seek 0).write (leBytes fm.idxW fm.marker ++ leBytes 4 defaultBlock ++
        leBytes 4 (listing.mergeSort entryLe).length ++ leBytes 4 0)).write
        (List.replicate (fm.indexBlock + fm.blockHeader) 0)) =
      ((((⟨⟨[], 0⟩, []⟩ : LFile).seek 0).write (headerBytes fm es.length)).write
        (List.replicate (fm.indexBlock + fm.blockHeader) 0)) := rfl
  rw [e0]
  generalize ((((⟨⟨[], 0⟩, []⟩ : LFile).seek 0).write (headerBytes fm es.length)).write
        (List.replicate (fm.indexBlock + fm.blockHeader) 0)) = l0 at *
  have ⟨ga, gb⟩ := g.atEnd (show ((⟨⟨[], 0⟩, []⟩ : LFile).seek 0).w.pos = _ from rfl)
  replace gb : l0.w.bytes = startBytes fm es.length := gb
  obtain ⟨D, hD⟩ := addAllL_grows fm es l0 [] ga
  have gt := g.trans hs0 hD
  obtain ⟨A, a1, a2, a3⟩ := gt
  replace a1 : (addAllL fm es (l0, [])).1.log = A := a1
  replace a2 : Cont 0 A (startBytes fm es.length ++ D) := a2
  have hsame := addAllL_same fm id es l0 []
  rcases hx : addAllL fm es (l0, []) with ⟨l1, er | toc⟩
  · rw [hx] at a1
    refine ⟨A, D, a2, .inl ?_⟩
    exact a1
  · rw [hx] at a1 hsame hD
    have hm : addAll fm id false es (l0.w, []) = .ok (l1.w, toc) := by
      unfold Same at hsame
      cases hm : addAll fm id false es (l0.w, []) with
      | error e => rw [hm] at hsame; exact hsame.elim
      | ok r =>
        obtain ⟨w, t⟩ := r
        rw [hm] at hsame
        obtain ⟨h1, h2⟩ := hsame
        rw [show w = l1.w from h1.symm, show t = toc from h2.symm]
    obtain ⟨p1, p2, p3⟩ := addAll_ok fm id es l0.w l1.w [] toc ga hm
    have hDd : D = docsOf fm es := by
      have h1 := (hD.atEnd ga).2
      have h2 := congrArg WFile.bytes p2
      rw [show l1.w.bytes = l0.w.bytes ++ D from h1] at h2
      exact List.append_cancel_left h2
    have hl0 : l0.w.bytes.length = fm.headerSize + (fm.indexBlock + fm.blockHeader) := by
      rw [gb, startBytes_length]
    have hl1 : l1.w.bytes.length = fm.headerSize + (fm.indexBlock + fm.blockHeader) + D.length := by
      rw [p2]; simp only; rw [List.length_append, hl0, hDd]
    rw [List.nil_append, hl0] at p3
    have ht := writeTocL_log fm wf l1 (tocOf fm (fm.headerSize + (fm.indexBlock + fm.blockHeader)) es) (by omega)
    rw [← p3] at ht
    refine ⟨A, D, a2, ?_⟩
    simp only [tableL]
    rcases ht with ht | ⟨h0, h1, h2, B, C, h3, h4⟩
    · exact .inl (by rw [show ((l1, Except.ok toc) : LFile × Except Err (List TocEntry)).1 = l1 from rfl] at a1; rw [← a1]; exact ht)
    · right
      refine ⟨B, C, h0, ?_, hDd, p1, h1, h2, ?_⟩
      · rw [← a1]; exact h3
      · rw [← hl1]; exact h4

end V8.Crash
