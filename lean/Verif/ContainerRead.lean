import Verif.ContainerLayout
/- Reading back what the builder wrote (helper lemmas). -/
namespace V8

/-- names that survive the attribute record: no NUL, no leading byte order mark -/
def GoodName (n : List Char) : Prop := NoBom n ∧ ∀ c ∈ n, c ≠ Char.ofNat 0

theorem parseAttr_attrRaw (ct mt : Nat) (name : List Char) (h1 : ct < 2^64) (h2 : mt < 2^64) (hn : GoodName name) :
    parseAttr (attrRaw ct mt name).length (attrRaw ct mt name) = .ok (ct, mt, name) := by
  have hl : (attrRaw ct mt name).length = 20 + (utf16le name ++ [0,0,0,0]).length := by
    simp [attrRaw]; omega
  have e : attrRaw ct mt name = leBytes 8 ct ++ (leBytes 8 mt ++ ([0,0,0,0] ++ (utf16le name ++ [0,0,0,0]))) := by
    simp [attrRaw]
  have hd : (attrRaw ct mt name).drop 20 = utf16le name ++ [0,0,0,0] := by
    have : attrRaw ct mt name = (leBytes 8 ct ++ leBytes 8 mt ++ [0,0,0,0]) ++ (utf16le name ++ [0,0,0,0]) := by
      simp [attrRaw]
    rw [this, List.drop_append]
    rw [List.drop_eq_nil_of_le (by simp)]; simp
  have ht : (attrRaw ct mt name).take 8 = leBytes 8 ct := by
    rw [e, List.take_append_of_le_length (by simp), List.take_of_length_le (by simp)]
  have ht2 : ((attrRaw ct mt name).drop 8).take 8 = leBytes 8 mt := by
    rw [e, List.drop_append, List.drop_eq_nil_of_le (by simp)]
    simp only [leBytes_length, Nat.sub_self, List.drop_zero, List.nil_append]
    rw [List.take_append_of_le_length (by simp), List.take_of_length_le (by simp)]
  unfold parseAttr
  rw [if_neg (by omega), if_neg (by simp), hd, utf16Decode_name name hn.1]
  simp only [ht, ht2]
  rw [leNat_leBytes 8 ct (by simpa using h1), leNat_leBytes 8 mt (by simpa using h2)]
  rw [untilNul_name name hn.2]

/-- a document stored as one block -/
theorem readDoc_single (fm : Fmt) (wf : fm.WF) (f : Bytes) (o : Nat) (data : Bytes) (m : Nat) (coff off : Int)
    (ho : off + coff = o)
    (hs : StoredAt f o (blockBytes fm data data.length m fm.marker))
    (hb : max m data.length < 16 ^ fm.hexW) (fuel : Nat) :
    readDoc fm fuel f coff off m =
      .ok ⟨((blockBytes fm data data.length m fm.marker).length : Nat), data.length, data⟩ := by
  have hlen := blockBytes_length fm data data.length m fm.marker
  have hmk : fm.marker < 16 ^ fm.hexW := Nat.lt_of_lt_of_le wf.markerHi wf.capHex
  unfold blockBytes at hs
  obtain ⟨P, hP⟩ : ∃ P, P = data ++ List.replicate (max m data.length - data.length) (0:UInt8) := ⟨_, rfl⟩
  have hpl : P.length = max m data.length := by rw [hP]; simp; omega
  rw [← hP, ← hpl] at hs
  rw [readDoc_chain fm wf.hex f coff off o data.length fm.marker P [] ho hs (by omega) (by omega) hmk .nil fuel
    (by simp) m ((blockBytes fm data data.length m fm.marker).length : Nat)]
  · simp [hP]
  · unfold fullSize
    rw [hpl]
    simp only
    rw [if_neg (by omega), hlen]
    congr 1
    omega

theorem putFile_new (files : List File) (x : File) (h : ∀ y ∈ files, y.name ≠ x.name) :
    putFile files x = files ++ [x] := by
  unfold putFile
  rw [if_neg]
  simp only [List.any_eq_true, decide_eq_true_eq, not_exists, not_and]
  exact h

theorem docsOf_cons (fm : Fmt) (e : Entry) (es : List Entry) :
    docsOf fm (e :: es) = attrBlock fm e ++ (dataBlock fm e ++ docsOf fm es) := by simp [docsOf]

theorem readEntries_docs (fm : Fmt) (wf : fm.WF) (f : Bytes) (fuel : Nat) (es : List Entry) (coff : Nat)
    (base : Nat) (size : Int) (files : List File)
    (hs : StoredAt f (base + coff) (docsOf fm es)) (hlen : f.length < 16 ^ fm.hexW)
    (hpl : ∀ e ∈ es, e.Plain) (hn : ∀ e ∈ es, GoodName e.name)
    (hnd : (es.map (·.name)).Nodup) (hnew : ∀ e ∈ es, ∀ y ∈ files, y.name ≠ e.name) :
    readEntries fm fuel f coff 512 ((tocOf fm base es).map fun p => ((p.1 : Int), (p.2 : Int))) (size, files) =
      .ok (size + ((docsOf fm es).length : Nat), files ++ es.map Entry.asRead) := by
  induction es generalizing base size files with
  | nil => simp [tocOf, readEntries, docsOf]
  | cons e es ih =>
    rw [docsOf_cons] at hs
    have hle := hs.le
    simp only [tocOf, List.map_cons, readEntries]
    have hsa := hs.left
    have hsr := hs.right
    have hsd := hsr.left
    have hst := hsr.right
    have hp := hpl e (by simp)
    cases hnode : e.node with
    | dir => simp [Entry.Plain, hnode] at hp
    | file ct mt data =>
      simp only [Entry.Plain, hnode] at hp
      have hattr : e.attr = attrRaw ct mt e.name := by simp [Entry.attr, hnode]
      have hcont : e.content = data := by simp [Entry.content, hnode]
      have hlA : (attrBlock fm e).length = fm.blockHeader + max 0 e.attr.length := blockBytes_length _ _ _ _ _
      have hlD : (dataBlock fm e).length = fm.blockHeader + max defaultBlock e.content.length :=
        blockBytes_length _ _ _ _ _
      simp only [List.length_append] at hle
      have r1 := readDoc_single fm wf f (base + coff) e.attr 0 coff base (by omega) hsa (by omega) fuel
      have r2 := readDoc_single fm wf f (base + coff + (attrBlock fm e).length) e.content defaultBlock coff
        ((base + (attrBlock fm e).length : Nat) : Int) (by omega) hsd (by omega) fuel
      rw [show ((0:Nat):Int) = 0 from rfl] at r1
      rw [show ((defaultBlock:Nat):Int) = 512 from rfl] at r2
      rw [r1]
      simp only
      rw [hattr, parseAttr_attrRaw ct mt e.name hp.1 hp.2 (hn e (by simp)), ← hattr]
      simp only
      rw [r2]
      simp only
      have hfile : (⟨e.name, e.content.length, parseDatetime ct, parseDatetime mt, e.content⟩ : File) = e.asRead := by
        simp [Entry.asRead, hnode, hcont]
      rw [hfile, putFile_new _ _ (by
        intro y hy; have := hnew e (by simp) y hy
        simpa [Entry.asRead, hnode] using this)]
      have hnd' := hnd
      simp only [List.map_cons, List.nodup_cons] at hnd'
      rw [ih]
      · congr 1
        simp only [Prod.mk.injEq]
        refine ⟨?_, by simp⟩
        rw [docsOf_cons]
        simp only [List.length_append]
        simp only [attrBlock, dataBlock]
        omega
      · have : base + (attrBlock fm e).length + (dataBlock fm e).length + coff =
          base + coff + (attrBlock fm e).length + (dataBlock fm e).length := by omega
        rw [this]; exact hst
      · exact fun x hx => hpl x (by simp [hx])
      · exact fun x hx => hn x (by simp [hx])
      · exact hnd'.2
      · intro x hx y hy
        rw [List.mem_append] at hy
        rcases hy with hy | hy
        · exact hnew x (by simp [hx]) y hy
        · simp only [List.mem_singleton] at hy
          subst hy
          intro hc
          apply hnd'.1
          have hen : e.asRead.name = e.name := by simp [Entry.asRead, hnode]
          rw [← hen, hc]
          exact List.mem_map_of_mem hx

end V8
