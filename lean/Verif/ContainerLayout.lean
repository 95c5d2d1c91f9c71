import Verif.ContainerLemmas
/- Layout of the file written by the builder, and reading it back (helper lemmas). -/
namespace V8

def attrRaw (ct mt : Nat) (name : List Char) : Bytes :=
  leBytes 8 ct ++ leBytes 8 mt ++ [0, 0, 0, 0] ++ utf16le name ++ [0, 0, 0, 0]

/-- entry is a plain file whose times fit -/
def Entry.Plain (e : Entry) : Prop :=
  match e.node with
  | .file ct mt _ => ct < 2^64 ∧ mt < 2^64
  | .dir => False

def Entry.attr (e : Entry) : Bytes :=
  match e.node with | .file ct mt _ => attrRaw ct mt e.name | .dir => []
def Entry.content (e : Entry) : Bytes :=
  match e.node with | .file _ _ d => d | .dir => []
def Entry.asRead (e : Entry) : File :=
  match e.node with
  | .file ct mt d => ⟨e.name, d.length, parseDatetime ct, parseDatetime mt, d⟩
  | .dir => ⟨e.name, 0, 0, 0, []⟩

def attrBlock (fm : Fmt) (e : Entry) : Bytes := blockBytes fm e.attr e.attr.length 0 fm.marker
def dataBlock (fm : Fmt) (e : Entry) : Bytes := blockBytes fm e.content e.content.length defaultBlock fm.marker
def docsOf (fm : Fmt) (es : List Entry) : Bytes := es.flatMap fun e => attrBlock fm e ++ dataBlock fm e

def tocOf (fm : Fmt) : Nat → List Entry → List (Nat × Nat)
  | _, [] => []
  | base, e :: es =>
    (base, base + (attrBlock fm e).length) ::
      tocOf fm (base + (attrBlock fm e).length + (dataBlock fm e).length) es

theorem addAll_ok (fm : Fmt) (deflate : Bytes → Bytes) (es : List Entry) (w w' : WFile)
    (toc toc' : List TocEntry) (hp : w.pos = w.bytes.length)
    (h : addAll fm deflate false es (w, toc) = .ok (w', toc')) :
    (∀ e ∈ es, e.Plain) ∧ w' = ⟨w.bytes ++ docsOf fm es, (w.bytes ++ docsOf fm es).length⟩ ∧
    toc' = toc ++ (tocOf fm w.bytes.length es).map (fun p => (p.1, some p.2)) := by
  induction es generalizing w toc with
  | nil =>
    simp only [addAll, Except.ok.injEq, Prod.mk.injEq] at h
    obtain ⟨rfl, rfl⟩ := h
    refine ⟨by simp, ?_, by simp [tocOf]⟩
    cases w; simp_all [docsOf]
  | cons e es ih =>
    rw [addAll] at h
    split at h
    · cases h
    · rename_i ct mt data hnode
      unfold addFile at h
      by_cases ht : ct < 2^64 ∧ mt < 2^64
      · have hattr : e.attr = attrRaw ct mt e.name := by simp [Entry.attr, hnode]
        have hcont : e.content = data := by simp [Entry.content, hnode]
        simp only [attrBytes, if_pos ht, writeDoc] at h
        rw [writeBlock_none _ _ _ _ _ _ hp] at h
        simp only [Bool.false_eq_true, if_false] at h
        rw [writeBlock_none _ _ _ _ _ _ rfl] at h
        simp only at h
        obtain ⟨h1, h2, h3⟩ := ih _ _ rfl h
        have ea : blockBytes fm (leBytes 8 ct ++ leBytes 8 mt ++ [0, 0, 0, 0] ++ utf16le e.name ++ [0, 0, 0, 0])
            (leBytes 8 ct ++ leBytes 8 mt ++ [0, 0, 0, 0] ++ utf16le e.name ++ [0, 0, 0, 0]).length 0
            (nextOf fm none) = attrBlock fm e := by
          simp only [attrBlock, hattr, attrRaw, nextOf]
        have ed : blockBytes fm data data.length defaultBlock (nextOf fm none) = dataBlock fm e := by
          simp only [dataBlock, hcont, nextOf]
        rw [ea, ed] at h2 h3
        refine ⟨?_, ?_, ?_⟩
        · intro x hx
          rcases List.mem_cons.mp hx with rfl | hx
          · simp only [Entry.Plain, hnode]; exact ht
          · exact h1 x hx
        · rw [h2]; simp [docsOf]
        · rw [h3]; simp [tocOf, Nat.add_assoc]
      · simp [attrBytes, if_neg ht] at h

theorem addAll_plain (fm : Fmt) (deflate : Bytes → Bytes) (es : List Entry) (w : WFile)
    (toc : List TocEntry) (hp : w.pos = w.bytes.length) (h : ∀ e ∈ es, e.Plain) :
    ∃ r, addAll fm deflate false es (w, toc) = .ok r := by
  induction es generalizing w toc with
  | nil => exact ⟨_, rfl⟩
  | cons e es ih =>
    have he := h e (by simp)
    rw [addAll]
    unfold Entry.Plain at he
    split
    · rename_i hn; rw [hn] at he; exact he.elim
    · rename_i ct mt data hnode
      rw [hnode] at he
      simp only [addFile, attrBytes, if_pos he, writeDoc]
      rw [writeBlock_none _ _ _ _ _ _ hp]
      simp only [Bool.false_eq_true, if_false]
      rw [writeBlock_none _ _ _ _ _ _ rfl]
      exact ih _ _ rfl (fun e he => h e (by simp [he]))

/-! ### table of contents -/

/-- facts about the two formats that the proofs use -/
structure Fmt.WF (fm : Fmt) : Prop where
  hex : 2 ≤ fm.hexW
  idx : 0 < fm.idxW
  cap : 2 ^ (8 * fm.idxW - 1) ≤ fm.idxLimit
  capHex : 256 ^ fm.idxW ≤ 16 ^ fm.hexW
  markerLo : 2 ^ (8 * fm.idxW - 1) - 1 ≤ fm.marker
  markerHi : fm.marker < 256 ^ fm.idxW
  markerBytes : ∃ m, leBytes fm.idxW fm.marker = List.replicate (fm.idxW - 1) 0xFF ++ [m]
  block : 4 * fm.blockHeader ≤ fm.indexBlock
  idxSmall : fm.idxW ≤ 8
  upLimit : fm.idxLimit ≤ 256 ^ fm.idxW
  ibHex : fm.indexBlock < 16 ^ fm.hexW

theorem fmt32_wf : fmt32.WF :=
  ⟨by decide, by decide, by decide, by decide, by decide, by decide, ⟨0x7F, by decide⟩, by decide, by decide, by decide, by decide⟩
theorem fmt64_wf : fmt64.WF :=
  ⟨by decide, by decide, by decide, by decide, by decide, by decide, ⟨0xFF, by decide⟩, by decide, by decide, by decide, by decide⟩

def tocBytes (fm : Fmt) (l : List (Nat × Nat)) : Bytes :=
  l.flatMap fun p => leBytes fm.idxW p.1 ++ leBytes fm.idxW p.2 ++ leBytes fm.idxW fm.marker

theorem packToc_ok (fm : Fmt) (l : List (Nat × Nat)) (t : Bytes)
    (h : packToc fm (l.map (fun p => (p.1, some p.2))) = .ok t) :
    t = tocBytes fm l ∧ ∀ p ∈ l, p.1 < fm.idxLimit ∧ p.2 < fm.idxLimit := by
  induction l generalizing t with
  | nil => simp [packToc] at h; subst h; simp [tocBytes]
  | cons p l ih =>
    simp only [List.map_cons, packToc, Fmt.packIdx] at h
    by_cases h1 : p.1 < fm.idxLimit <;> by_cases h2 : p.2 < fm.idxLimit <;>
      simp only [h1, h2, if_true, if_false] at h <;>
      try (cases h; done)
    cases hr : packToc fm (l.map (fun p => (p.1, some p.2))) with
    | error e => rw [hr] at h; cases h
    | ok r =>
      rw [hr] at h
      simp only [Except.ok.injEq] at h
      obtain ⟨rfl, h4⟩ := ih r hr
      refine ⟨by rw [← h]; simp [tocBytes], ?_⟩
      intro q hq
      rcases List.mem_cons.mp hq with rfl | hq
      · exact ⟨h1, h2⟩
      · exact h4 q hq

theorem packToc_of (fm : Fmt) (l : List (Nat × Nat))
    (h : ∀ p ∈ l, p.1 < fm.idxLimit ∧ p.2 < fm.idxLimit) :
    packToc fm (l.map (fun p => (p.1, some p.2))) = .ok (tocBytes fm l) := by
  induction l with
  | nil => rfl
  | cons p l ih =>
    have hp := h p (by simp)
    simp only [List.map_cons, packToc, Fmt.packIdx, hp, if_true]
    rw [ih (fun q hq => h q (by simp [hq]))]
    simp [tocBytes]

theorem tocBytes_length (fm : Fmt) (l : List (Nat × Nat)) : (tocBytes fm l).length = 3 * fm.idxW * l.length := by
  induction l with
  | nil => simp [tocBytes]
  | cons p l ih =>
    have : tocBytes fm (p :: l) = leBytes fm.idxW p.1 ++ leBytes fm.idxW p.2 ++
      leBytes fm.idxW fm.marker ++ tocBytes fm l := by simp [tocBytes]
    rw [this]
    simp only [List.length_append, leBytes_length, ih, List.length_cons, Nat.mul_add, Nat.mul_one]
    omega

/-- last byte of a small word -/
theorem leBytes_last (w n : Nat) (hw : 0 < w) : ∃ b : UInt8, leBytes w n = leBytes (w-1) n ++ [b] ∧
    b.toNat = n / 256 ^ (w-1) % 256 := by
  induction w generalizing n with
  | zero => omega
  | succ w ih =>
    rcases w with _ | w
    · refine ⟨UInt8.ofNat (n % 256), by simp [leBytes], ?_⟩
      simp
    · obtain ⟨b, h1, h2⟩ := ih (n / 256) (by omega)
      refine ⟨b, ?_, ?_⟩
      · have e : leBytes (w + 1 + 1) n = UInt8.ofNat (n % 256) :: leBytes (w+1) (n/256) := rfl
        have e2 : leBytes (w + 1 + 1 - 1) n = UInt8.ofNat (n % 256) :: leBytes w (n/256) := rfl
        rw [e, e2, h1]; rfl
      · rw [h2]
        have : w + 1 + 1 - 1 = (w + 1 - 1) + 1 := by omega
        rw [this, Nat.pow_succ, Nat.mul_comm _ 256, ← Nat.div_div_eq_div_mul]

/-- a word below the limit cannot be mistaken for (part of) the end marker -/
def SafeWord (fm : Fmt) (x : Bytes) : Prop :=
  x.length = fm.idxW ∧ x ≠ leBytes fm.idxW fm.marker ∧ x[fm.idxW - 1]? ≠ some 0xFF

theorem safeWord_of_lt (fm : Fmt) (wf : fm.WF) (n : Nat) (h : n < 2 ^ (8 * fm.idxW - 1) - 1) :
    SafeWord fm (leBytes fm.idxW n) := by
  have hw := wf.idx
  have hpow : (2:Nat) ^ (8 * fm.idxW - 1) = 128 * 256 ^ (fm.idxW - 1) := by
    have : (256:Nat) = 2 ^ 8 := by decide
    rw [this, ← Nat.pow_mul]
    have : (128:Nat) = 2 ^ 7 := by decide
    rw [this, ← Nat.pow_add]; congr 1; omega
  refine ⟨by simp, ?_, ?_⟩
  · intro hc
    have h1 := congrArg leNat hc
    have hlt : n < 256 ^ fm.idxW := by
      have := wf.markerLo; have := wf.markerHi; omega
    rw [leNat_leBytes _ _ hlt, leNat_leBytes _ _ wf.markerHi] at h1
    have := wf.markerLo; omega
  · obtain ⟨b, h1, h2⟩ := leBytes_last fm.idxW n hw
    rw [h1]
    have hl : (leBytes (fm.idxW - 1) n).length = fm.idxW - 1 := by simp
    rw [List.getElem?_append_right (by omega), hl]
    simp only [Nat.sub_self, List.getElem?_cons_zero]
    intro hc
    injection hc with hc
    rw [hc] at h2
    have h3 : n / 256 ^ (fm.idxW - 1) < 128 := by
      apply Nat.div_lt_of_lt_mul; rw [Nat.mul_comm]; omega
    have h4 : (0xFF : UInt8).toNat = 255 := by decide
    rw [h4, Nat.mod_eq_of_lt (Nat.lt_trans h3 (by decide))] at h2
    rw [← h2] at h3
    exact absurd h3 (by decide)

theorem isPrefixOf_false_of_get {pat l : Bytes} (i : Nat) (a b : UInt8) (h1 : pat[i]? = some a)
    (h2 : l[i]? = some b) (hne : a ≠ b) : pat.isPrefixOf l = false := by
  cases h : pat.isPrefixOf l with
  | false => rfl
  | true =>
    rw [List.isPrefixOf_iff_prefix] at h
    obtain ⟨t, rfl⟩ := h
    have hi : i < pat.length := by
      have := List.getElem?_eq_some_iff.mp h1
      exact this.1
    rw [List.getElem?_append_left hi, h1] at h2
    injection h2 with h2
    exact absurd h2 hne

/-- no match of the marker starts inside a safe word, whatever follows -/
theorem no_match_in_word (fm : Fmt) (wf : fm.WF) (x rest : Bytes) (hx : SafeWord fm x) (k : Nat) (hk : k < fm.idxW) :
    (leBytes fm.idxW fm.marker).isPrefixOf (x.drop k ++ rest) = false := by
  obtain ⟨hl, hne, htop⟩ := hx
  obtain ⟨m, hm⟩ := wf.markerBytes
  have hw := wf.idx
  rcases Nat.eq_zero_or_pos k with rfl | hk0
  · cases h : (leBytes fm.idxW fm.marker).isPrefixOf (x.drop 0 ++ rest) with
    | false => rfl
    | true =>
      rw [List.isPrefixOf_iff_prefix, List.drop_zero] at h
      exfalso
      apply hne
      have := List.prefix_iff_eq_take.mp h
      rw [this, leBytes_length, List.take_append_of_le_length (by omega), List.take_of_length_le (by omega)]
  · have htb : ∃ b, x[fm.idxW - 1]? = some b := by
      exact ⟨x[fm.idxW - 1]'(by omega), List.getElem?_eq_getElem (by omega)⟩
    obtain ⟨b, hb⟩ := htb
    apply isPrefixOf_false_of_get (fm.idxW - 1 - k) 0xFF b
    · rw [hm, List.getElem?_append_left (by simp; omega)]
      simp only [List.getElem?_replicate]
      rw [if_pos (by omega)]
    · rw [List.getElem?_append_left (by simp; omega), List.getElem?_drop]
      rw [show k + (fm.idxW - 1 - k) = fm.idxW - 1 by omega, hb]
    · intro hc; apply htop; rw [hb, hc]

theorem bsplit_toc (fm : Fmt) (wf : fm.WF) (l : List (Nat × Nat))
    (h : ∀ p ∈ l, p.1 < 2 ^ (8 * fm.idxW - 1) - 1 ∧ p.2 < 2 ^ (8 * fm.idxW - 1) - 1) :
    bsplit (leBytes fm.idxW fm.marker) (tocBytes fm l) =
      l.map (fun p => leBytes fm.idxW p.1 ++ leBytes fm.idxW p.2) ++ [[]] := by
  unfold bsplit
  induction l with
  | nil => simp [tocBytes, bsplitAux]
  | cons p l ih =>
    have hp := h p (by simp)
    have s1 := safeWord_of_lt fm wf p.1 hp.1
    have s2 := safeWord_of_lt fm wf p.2 hp.2
    have e : tocBytes fm (p :: l) = leBytes fm.idxW p.1 ++ (leBytes fm.idxW p.2 ++
      (leBytes fm.idxW fm.marker ++ tocBytes fm l)) := by simp [tocBytes]
    rw [e, bsplitAux_skip _ _ _ _ (fun k hk => no_match_in_word fm wf _ _ s1 k (by simpa using hk)),
      bsplitAux_skip _ _ _ _ (fun k hk => no_match_in_word fm wf _ _ s2 k (by simpa using hk)),
      bsplitAux_match _ _ _ (by
        intro hc
        have := leBytes_length fm.idxW fm.marker
        rw [hc] at this; simp at this; have := wf.idx; omega),
      ih (fun q hq => h q (by simp [hq]))]
    simp

theorem unpackIdx_leBytes (fm : Fmt) (wf : fm.WF) (n : Nat) (h : n < 2 ^ (8 * fm.idxW - 1) - 1) :
    fm.unpackIdx (leBytes fm.idxW n) = (n : Int) := by
  have hlt : n < 256 ^ fm.idxW := by
    have := wf.markerLo; have := wf.markerHi; omega
  unfold Fmt.unpackIdx
  simp only [leNat_leBytes _ _ hlt]
  rw [if_neg (by intro hc; have := hc.2; omega)]

theorem mapExcept_toc (fm : Fmt) (wf : fm.WF) (l : List (Nat × Nat))
    (h : ∀ p ∈ l, p.1 < 2 ^ (8 * fm.idxW - 1) - 1 ∧ p.2 < 2 ^ (8 * fm.idxW - 1) - 1) :
    mapExcept fm.unpackPair (l.map (fun p => leBytes fm.idxW p.1 ++ leBytes fm.idxW p.2)) =
      .ok (l.map fun p => ((p.1 : Int), (p.2 : Int))) := by
  induction l with
  | nil => rfl
  | cons p l ih =>
    have hp := h p (by simp)
    simp only [List.map_cons, mapExcept, ih (fun q hq => h q (by simp [hq]))]
    have : fm.unpackPair (leBytes fm.idxW p.1 ++ leBytes fm.idxW p.2) = .ok ((p.1 : Int), (p.2 : Int)) := by
      unfold Fmt.unpackPair
      rw [if_neg (by simp; omega)]
      rw [List.take_append_of_le_length (by simp), List.take_of_length_le (by simp)]
      have : (leBytes fm.idxW p.1 ++ leBytes fm.idxW p.2).drop fm.idxW = leBytes fm.idxW p.2 := by
        rw [List.drop_append]; simp
      rw [this, unpackIdx_leBytes fm wf _ hp.1, unpackIdx_leBytes fm wf _ hp.2]
    rw [this]

end V8
