import Verif.FormObjLemmas
import Verif.Props.Leaf
import Verif.Props.Form
import Verif.Props.OFormAgain
import Verif.OFormShape
/-
C64: forms with their files come back.
-/
namespace V8.FormObj
open V8.Brace V8.Enc V8.JsonText V8.Header V8.Object V8.FormJson
open V8.Store hiding Kind
open V8.Leaf (versionAt)
open V8.Module (EncName Code readRaw writeText writeDecode readCode writeCode getset formCodeOut formCodeIn comment tokIn Rebuilt
  extractModule buildModule)
open V8.Product (getAt setAt getAt_setAt setAt_getAt setAt_setAt getAt_frame)

/-! ## what is asked of a form -/

/-- the file `uuid.1`, if there is one, is in the layout of the serializer -/
def OneOk (win : Bool) (n : Option Node) : Prop := n = none ∨ ∃ d, n = some (.file (braceFile win d)) ∧ d ≠ [] ∧ WFFile d

/-- a managed form whose elements come back (C30), or one that cannot be taken apart and is left alone by a build (C45) -/
def ManagedOk (g : Lim) (con : Option Text) (raw : List Val) : Prop :=
  (∃ raw' s, V8.Form.decodeForm g.depth con raw = some (raw', s) ∧ (s.data.map (·.1)).Nodup ∧ V8.Form.encodeForm g.depth con raw' s = some raw) ∨
  (V8.Form.decodeForm g.depth con raw = none ∧ ∀ s, V8.Form.encodeForm g.depth con raw s = some raw)

/-- an ordinary form whose elements come back: without auto_include (C53) or with it (C69) -/
def OrdinaryOk (g : Lim) (ni : Nat) (raw : List Val) : Bool → Prop
  | false => ∃ raw' s, V8.OForm.formOut ni g.depth raw = some (raw', s) ∧ (s.data.map (·.1)).Nodup ∧ V8.OForm.formIn g.depth raw' s = some raw
  | true => ∃ raw' s, V8.OAuto.formOut ni g.depth raw = some (raw', s) ∧ (s.data.map (·.1)).Nodup ∧ V8.OAuto.formIn g.depth raw' s = some raw

/-- what is asked of the files `uuid.0` and `uuid.1` of a form of the type `ty` -/
inductive FormOk (win : Bool) (g : Lim) (auto : Bool) (con : Option Text) : Text → Option Node → Option Node → Prop
  /-- an ordinary form without data -/
  | bare : FormOk win g auto con ['0'] none none
  /-- an ordinary form: a folder with the form and its module, a text that comes back -/
  | ordinary (raw : List Val) (rows : List (List Val)) (m : Bytes) (n1 : Option Node) (wf : WFFile (raw :: rows)) (one : OneOk win n1)
      (code : Rebuilt win true m m) (text : utf8Text m ≠ none ∨ cpText m ≠ none)
      (elems : ∀ v ni ver, decoderOf ['0'] [raw :: rows] = some (v, some (.ordinary ni ver)) → OrdinaryOk g ni raw auto) :
      FormOk win g auto con ['0'] (some (.dir (formDir (braceFile win (raw :: rows)) m))) n1
  /-- a managed form: a file with the module in it, a literal -/
  | managed (raw : List Val) (rows : List (List Val)) (code : Text) (n1 : Option Node) (wf : WFFile (raw :: rows)) (one : OneOk win n1)
      (ver : tokIn raw[0]? [['4'], ['3'], ['2']] = true) (lit : raw[2]? = some (.str (quoted code))) (cr : '\r' ∉ code) (mark : code.head? ≠ some bom)
      (elems : ManagedOk g con raw) : FormOk win g auto con ['1'] (some (.file (braceFile win (raw :: rows)))) n1

/-- what is asked of a form: its file is in the layout of the serializer, under its identifier, and the name and the data are ones that come
back each for itself -/
structure FormFit (x : Ext) (y : Bld) (g : Lim) (con : Option Text) (F : Text → Option Node) (f : FCls) (u : Text) (d : List (List Val)) (c : Cls)
    (ver ty : Text) : Prop where
  file : F u = some (.file (braceFile y.win d))
  ne : d ≠ []
  wf : WFFile d
  place : clsAt (rootVal d) f.site = some (c, ver)
  type : typeAt (rootVal d) f.site = some ty
  uuid : ∃ l, (headerOf c d)[1]? = some (.list l) ∧ l[2]? = some (.str u)
  pre : PrefixOk x.p y.parent (headerOf c d)
  data : FormOk y.win g x.auto con ty (F (dot u ['0'])) (F (dot u ['1']))

/-- what an interrupted extraction leaves behind is a dict -/
def Lim.Good (g : Lim) : Prop := ∀ raw, ((g.left raw).map (·.1)).Nodup

/-! ## the parts -/

theorem dget_absent (ps : List (Place JT)) (n : Text) (h : n ∉ ps.map (·.1)) : dget (written ps) n = none := by
  unfold dget
  cases hf : (written ps).find? (fun p => decide (p.1 = n)) with
  | none => rfl
  | some p =>
    have h1 := List.find?_some hf
    rw [decide_eq_true_eq] at h1
    have h2 := List.mem_of_find?_eq_some hf
    rw [mem_written] at h2
    exact absurd (List.mem_map.mpr ⟨_, h2, h1⟩) h

/-- the forms of the description are read back -/
theorem formAt_formJson (j : JT) (form : List File) (h : entry j formWord = some (formJson form)) : formAt j = some form := by
  unfold formAt
  rw [h]
  unfold formJson
  simp only
  exact allOf_map _ _ _ (fun d _ => by rw [valOf_jsonOf, Option.bind_some, rootOf_rootVal])

theorem formJson_wf (form : List File) : (formJson form).WF := by
  unfold formJson
  exact arr_wf (wfs_map _ _ (fun d _ => jsonOf_wf _))

/-- which class takes an ordinary form apart depends on its first value alone -/
theorem decoder_ordinary {raw raw' : List Val} {rows rows' : List (List Val)} {more more' : List File} {v : Text} {ni : Nat} {ver : Int}
    (h : decoderOf ['0'] ((raw :: rows) :: more) = some (v, some (.ordinary ni ver))) (h0 : raw'[0]? = raw[0]?) :
    decoderOf ['0'] ((raw' :: rows') :: more') = some (v, some (.ordinary ni ver)) := by
  unfold decoderOf at h ⊢
  rw [show supported ['0'] = none by decide] at h ⊢
  simp only at h ⊢
  rw [h0]
  cases ha : (raw[0]? : Option Val).bind shown with
  | none => rw [ha] at h; cases h
  | some a =>
    rw [ha] at h
    simp only [Option.bind_some] at h ⊢
    cases hs : supported (['0'] ++ '-' :: a) with
    | some d => rw [hs] at h; exact h
    | none =>
      rw [hs] at h
      simp only at h
      exfalso
      cases hl : lastPart raw with
      | none => rw [hl] at h; cases h
      | some b =>
        rw [hl] at h
        have h2 := congrArg (Option.map Prod.snd) h
        simp only [Option.map_some, Option.some.injEq] at h2
        have hb : b = [] ∨ ∃ s, b = '-' :: s := by
          unfold lastPart at hl
          split at hl
          · cases hl; exact .inl rfl
          · rw [Option.map_eq_some_iff] at hl
            obtain ⟨s, _, rfl⟩ := hl
            exact .inr ⟨s, rfl⟩
          · cases hl
        rcases hb with rfl | ⟨s, rfl⟩
        · rw [List.append_nil, hs] at h2
          cases h2
        · have hno : ∀ t : Text, (∃ c d, t = ['0', '-', c, d] ∧ c ≠ '-' ∧ d ≠ '-') → ['0'] ++ '-' :: a ++ '-' :: s ≠ t := by
            rintro t ⟨c, d, rfl, hc, hd⟩ he
            simp only [List.cons_append, List.nil_append, List.cons.injEq, true_and] at he
            have : '-' ∈ [c, d] := by rw [← he]; simp
            simp only [List.mem_cons, List.not_mem_nil, or_false] at this
            rcases this with h | h
            · exact hc h.symm
            · exact hd h.symm
          unfold supported at h2
          rw [if_neg (by simp), if_neg (hno "0-26".toList ⟨'2', '6', rfl, by decide, by decide⟩), if_neg (hno "0-27".toList ⟨'2', '7', rfl, by decide, by decide⟩)] at h2
          cases h2

/-- the class does not depend on what comes after the first file -/
theorem decoder_first (ty : Text) (d : File) (more more' : List File) : decoderOf ty (d :: more) = decoderOf ty (d :: more') := by
  cases d <;> rfl

/-- the class that takes ordinary forms apart is no class for managed ones -/
theorem decoder_not_managed {form : List File} {v : Text} (h : decoderOf ['0'] form = some (v, some .managed)) : False := by
  unfold decoderOf at h
  split at h
  · rw [show supported ['0'] = none by decide] at h
    simp only at h
    cases ha : ((‹List Val›)[0]? : Option Val).bind shown with
    | none => rw [ha] at h; cases h
    | some a =>
      rw [ha] at h
      simp only [Option.bind_some] at h
      have hm : ∀ t, supported ('0' :: t) ≠ some .managed := by
        intro t
        unfold supported
        rw [if_neg (by simp)]
        by_cases h1 : '0' :: t = "0-26".toList
        · rw [if_pos h1]; intro h; cases h
        · rw [if_neg h1]
          by_cases h2 : '0' :: t = "0-27".toList
          · rw [if_pos h2]; intro h; cases h
          · rw [if_neg h2]; intro h; cases h
      cases hs : supported (['0'] ++ '-' :: a) with
      | some d =>
        rw [hs] at h
        simp only [Option.some.injEq, Prod.mk.injEq] at h
        rw [h.2] at hs
        exact hm _ hs
      | none =>
        rw [hs] at h
        simp only [Option.map_eq_some_iff, Prod.mk.injEq] at h
        obtain ⟨b, _, _, h⟩ := h
        exact hm _ h
  · cases h

theorem oneOut_ok {win : Bool} {F : Text → Option Node} {n : Text} {one : List File} (h : oneOut (fileAt F n) = some one) (hok : OneOk win (F n)) :
    (one = [] ∧ F n = none) ∨ ∃ d, one = [d] ∧ F n = some (.file (braceFile win d)) := by
  unfold fileAt at h
  rcases hok with h0 | ⟨d, h0, hne, hwf⟩
  · rw [h0] at h
    cases h
    exact .inl ⟨rfl, h0⟩
  · rw [h0] at h
    simp only [oneOut] at h
    rw [C59_brace_file_round_trip win d hne hwf] at h
    cases h
    exact .inr ⟨d, rfl, h0⟩

theorem one_back {win : Bool} {F : Text → Option Node} {n : Text} {one : List File} (d : File) (h : (one = [] ∧ F n = none) ∨ ∃ d, one = [d] ∧ F n = some (.file (braceFile win d))) :
    ((d :: one)[1]?).map (fun d => Node.file (braceFile win d)) = F n := by
  rcases h with ⟨rfl, h⟩ | ⟨d', rfl, h⟩
  · rw [h]; rfl
  · rw [h]; rfl

/-- a module that comes back, as an ordinary form has it -/
theorem module_back (w win : Bool) (m : Bytes) (h : Rebuilt win true m m) (ht : utf8Text m ≠ none ∨ cpText m ≠ none) :
    ∃ code, readCode ⟨none, (readRaw true (some m)).2, (writeDecode w (readRaw true (some m)).1 (readRaw true (some m)).2).1,
        (writeDecode w (readRaw true (some m)).1 (readRaw true (some m)).2).2⟩ = some code ∧
      moduleBack win (readRaw true (some m)).2 code = some m := by
  have hb := h.1 w
  unfold buildModule at hb
  have e : extractModule w true (.file m) = ⟨some none, (readRaw true (some m)).2, (writeDecode w (readRaw true (some m)).1 (readRaw true (some m)).2).1,
        (writeDecode w (readRaw true (some m)).1 (readRaw true (some m)).2).2⟩ := rfl
  rw [e] at hb
  simp only at hb
  cases hr : readCode ⟨some none, (readRaw true (some m)).2, (writeDecode w (readRaw true (some m)).1 (readRaw true (some m)).2).1,
        (writeDecode w (readRaw true (some m)).1 (readRaw true (some m)).2).2⟩ with
  | none => rw [hr] at hb; cases hb
  | some code =>
    rw [hr] at hb
    simp only at hb
    refine ⟨code, hr, ?_⟩
    cases hw : writeCode win true (readRaw true (some m)).2 code with
    | none => rw [hw] at hb; cases hb
    | some b =>
      rw [hw] at hb
      cases hb
      have hne : (readRaw true (some m)).2 ≠ .bin := by
        cases h8 : utf8Text m with
        | some t =>
          simp only [readRaw, h8]
          unfold V8.Module.bomName
          cases detectByBom m with
          | none => simp
          | some e => cases e <;> simp
        | none =>
          cases hc : cpText m with
          | some t => simp only [readRaw, h8, hc]; decide
          | none => exact absurd h8 (ht.resolve_right (fun hh => hh hc))
      unfold writeCode at hw
      unfold moduleBack
      cases code with
      | bytes c => simp only [if_neg hne] at hw; cases hw
      | text t => simp only [if_neg hne, if_true] at hw ⊢; exact hw

theorem slot_ne_path {q : List Nat} {i j : Nat} (h : i ≠ j) : ¬ (0 :: 1 :: (q ++ [i])) <+: (0 :: 1 :: (q ++ [j])) := by
  intro hp
  have := hp.eq_of_length (by simp)
  simp only [List.cons.injEq, List.append_cancel_left_eq, and_true, true_and] at this
  exact h this

theorem clsAt_some {root : Val} {s : Site} {c : Cls} {v : Text} (h : clsAt root s = some (c, v)) :
    ∃ q, within root s = some q ∧ c = Leaf.plain (q ++ [1]) ∧ getAt root (slot q 0) = some (.str v) ∧ v ∈ versions := by
  unfold clsAt at h
  rw [Option.bind_eq_some_iff] at h
  obtain ⟨q, hq, h⟩ := h
  split at h
  · rename_i w hg
    by_cases hv : w ∈ versions
    · rw [if_pos hv] at h
      cases h
      exact ⟨q, hq, rfl, hg, hv⟩
    · rw [if_neg hv] at h; cases h
  · cases h

/-- the header is found where it was after it was changed -/
theorem clsAt_kept {root r w : Val} {s : Site} {c : Cls} {v : Text} (hc : clsAt root s = some (c, v)) (hs : setAt root c.path w = some r) :
    clsAt r s = some (c, v) := by
  obtain ⟨q, hq, rfl, hg, hv⟩ := clsAt_some hc
  have hp : (Leaf.plain (q ++ [1])).path = 0 :: 1 :: (q ++ [1]) := rfl
  rw [hp] at hs
  have hw : within r s = some q := by
    cases s with
    | form1 => exact hq
    | form0 => exact hq
    | form =>
      have hf : getAt r [0, 1, 0] = getAt root [0, 1, 0] := by
        have hq1 : ∃ t, q = 1 :: t := by
          unfold within at hq
          rw [Option.bind_eq_some_iff] at hq
          obtain ⟨w', _, h⟩ := hq
          by_cases h0 : w' = ['0']
          · rw [if_pos h0] at h; cases h; exact ⟨[], rfl⟩
          · rw [if_neg h0] at h
            by_cases h1 : w' = ['1']
            · rw [if_pos h1] at h; cases h; exact ⟨[1], rfl⟩
            · rw [if_neg h1] at h; cases h
        obtain ⟨t, rfl⟩ := hq1
        refine getAt_frame _ _ _ _ _ hs ?_ ?_
        · intro h
          have := h.length_le
          simp only [List.length_cons, List.length_append, List.length_nil] at this
          omega
        · rintro ⟨u, h⟩
          simp only [List.cons_append, List.cons.injEq, true_and] at h
          exact absurd h.1 (by decide)
      have : within r .form = within root .form := by unfold within versionAt; rw [hf]
      rw [this]; exact hq
  unfold clsAt
  rw [hw, Option.bind_some]
  have hf2 : getAt r (slot q 0) = getAt root (slot q 0) :=
    getAt_frame _ _ _ _ _ hs (slot_ne_path (by decide)) (slot_ne_path (by decide))
  rw [hf2, hg]
  simp only
  rw [if_pos hv]

/-- the description records the type, the form and the version of its elements -/
theorem formPlaces_common (ty : Text) (z : Zero) (form : List File) (v : Text) :
    (typeWord, some (JT.str ty)) ∈ formPlaces ty z form v ∧ (formWord, some (formJson form)) ∈ formPlaces ty z form v ∧
      (versionWord, some (JT.str v)) ∈ formPlaces ty z form v := by
  unfold formPlaces
  cases z with
  | apart _ _ enc => simp
  | inline _ _ => simp
  | missing => by_cases h : form = [] <;> simp [h]

/-- the code of a managed form comes back -/
theorem code_inline (w : Bool) (n : Text) (S : Text → Option Node) (j : JT) (code : Text) (hr : '\r' ∉ code) (hb : code.head? ≠ some bom)
    (hi : entry j (infoKey objWord) = some (.str elsewhereCode)) (he : entry j (encKey objWord) = none)
    (h1 : fileIn S (bslName n objWord) = (writeDecode w (some (.text code)) .utf8).1) :
    codeBack n S j = some (some (.text code)) := by
  have hh : hasCode j = true := by
    unfold hasCode
    rw [hi]
    decide +kernel
  have e1 : encIn j = some .utf8sig := by
    unfold encIn
    rw [he]
  have hb2 := V8.Module.build_text w none .utf8 code hr (by decide)
  have hd : dropBom code = code := by unfold dropBom; rw [if_neg hb]
  rw [hd] at hb2
  unfold codeBack
  rw [if_pos hh, e1, Option.bind_some, h1]
  have : ∀ a b b', readCode ⟨none, .utf8sig, a, b⟩ = readCode ⟨some none, .utf8, a, b'⟩ := fun a b b' => rfl
  rw [this _ _ (writeDecode w (some (.text code)) .utf8).2, hb2]
  rfl

/-- the data of a managed form come back, with the code that a build finds in the sources -/
theorem managed_back {x : Ext} {y : Bld} {g : Lim} {con : Option Text} {F : Text → Option Node} {f : FCls} {u : Text} {z : Zero} {one : List File}
    {v : Text × Option Decoder} {e : List File × JT} {S : Text → Option Node} {j : JT} {raw : List Val} {rows : List (List Val)} {code t : Text}
    (wf : WFFile (raw :: rows)) (oneOk : OneOk y.win (F (dot u ['1']))) (ver : tokIn raw[0]? [['4'], ['3'], ['2']] = true)
    (lit : raw[2]? = some (.str (quoted code))) (elems : ManagedOk g con raw) (hg : g.Good)
    (hz : zeroOut ['1'] (some (.file (braceFile y.win (raw :: rows)))) = some z) (ho : oneOut (fileAt F (dot u ['1'])) = some one)
    (hv : decoderOf ['1'] (firstOf ['1'] z ++ one) = some v) (he : elemsOut g x.auto con v.2 (firstOf ['1'] z ++ one) = some e)
    (hcb : (∀ q ∈ formPlaces ['1'] z e.1 v.1, entry j q.1 = q.2) → z = .inline (raw.set 2 (.str elsewhereCode) :: rows) code →
      codeBack f.name S j = some (some (.text t)))
    (hj : ∀ q ∈ formPlaces ['1'] z e.1 v.1, entry j q.1 = q.2)
    (h3 : fileIn S (elemName f.name) = some (fileOf x.win e.2)) :
    ∃ form1 form2, codeBack f.name S j = some (some (.text t)) ∧ putCode (some (.text t)) e.1 = some form1 ∧
      elemsIn g y.auto con ['1'] (fileIn S (elemName f.name)) form1 = some form2 ∧
      zeroBack y.win ['1'] j (some (.text t)) form2 = some (some (.file (braceFile y.win (raw.set 2 (.str (quoted t)) :: rows)))) ∧
      (form2[1]?).map (fun d => Node.file (braceFile y.win d)) = F (dot u ['1']) := by
  rw [h3]
  have hone := oneOut_ok ho oneOk
  have hlen : 2 < raw.length := (List.getElem?_eq_some_iff.mp lit).1
  have hgs : ∀ (r : List Val) (t t' : Text), tokIn r[0]? [['4'], ['3'], ['2']] = true → r[2]? = some (.str t) →
      getset (r :: rows) t' = .ok (t, r.set 2 (.str t') :: rows) := by
    intro r t t' hr0 hr2
    rw [getset, if_pos ⟨(List.getElem?_eq_some_iff.mp hr2).1, hr0⟩, hr2]
  have hco : formCodeOut (quoted code) = code := V8.Module.C29_code_back code
  have hz2 : z = .inline (raw.set 2 (.str elsewhereCode) :: rows) code := by
    unfold zeroOut at hz
    rw [if_neg (by decide)] at hz
    simp only [C59_brace_file_round_trip y.win _ (List.cons_ne_nil _ _) wf, Option.bind_some, hgs raw _ elsewhereCode ver lit, hco,
      Option.some.injEq] at hz
    exact hz.symm
  replace hcb := hcb hj hz2
  subst hz2
  simp only [firstOf, List.cons_append, List.nil_append] at hv he
  have hv2 : v = (['1'], some .managed) := by
    unfold decoderOf at hv
    rw [show supported ['1'] = some .managed by decide] at hv
    exact (Option.some.inj hv).symm
  subst hv2
  have hput : ∀ (r : List Val), tokIn r[0]? [['4'], ['3'], ['2']] = true → r[2]? = some (.str (quoted code)) →
      putCode (some (.text t)) ((r.set 2 (.str elsewhereCode) :: rows) :: one) = some ((r.set 2 (.str (quoted t)) :: rows) :: one) := by
    intro r hr0 hr2
    have hl := (List.getElem?_eq_some_iff.mp hr2).1
    have hq : formCodeIn t = quoted t := rfl
    unfold putCode
    simp only [putCode.put]
    rw [hgs (r.set 2 (.str elsewhereCode)) elsewhereCode (formCodeIn t) (by rw [List.getElem?_set_ne (by decide)]; exact hr0)
      (List.getElem?_set_self hl), List.set_set, hq]
  have hdec : ∀ r : List Val, decoderOf ['1'] ((r :: rows) :: one) = some (['1'], some .managed) := by
    intro r
    unfold decoderOf
    rw [show supported ['1'] = some .managed by decide]
  have hzb : ∀ r : List Val, zeroBack y.win ['1'] j (some (.text t)) ((r :: rows) :: one) = some (some (.file (braceFile y.win (r :: rows)))) := by
    intro r
    unfold zeroBack
    rw [if_neg (by decide)]
    rfl
  rcases elems with ⟨raw', s, hd, hk, hb⟩ | ⟨hd, hb⟩
  · have hd2 := V8.Form.decodeForm_set g.depth con raw (.str elsewhereCode)
    rw [hd, Option.map_some] at hd2
    simp only [elemsOut, hd2] at he
    cases he
    obtain ⟨f0, f2⟩ := V8.Form.decodeForm_frame hd
    refine ⟨(raw'.set 2 (.str (quoted t)) :: rows) :: one, (raw.set 2 (.str (quoted t)) :: rows) :: one, hcb, ?_, ?_, hzb _, ?_⟩
    · exact hput raw' (by rw [f0]; exact ver) (by rw [f2]; exact lit)
    · simp only [elemsIn]
      rw [hdec, Option.bind_some]
      simp only [Option.bind_some]
      rw [C58_round_trip _ _ (managedJson_wf _), Option.bind_some,
        managedOf_managedJson { s with data := sortBy (·.1) s.data } (fun l hl => V8.Form.decode_params hd l hl) (V8.Form.sorted_nodup _ hk), Option.bind_some,
        V8.Form.encodeForm_sorted _ _ _ _ hk, V8.Form.encodeForm_set, hb]
      rfl
    · exact one_back _ hone
  · have hd2 := V8.Form.decodeForm_set g.depth con raw (.str elsewhereCode)
    rw [hd, Option.map_none] at hd2
    simp only [elemsOut, hd2] at he
    cases he
    refine ⟨(raw.set 2 (.str (quoted t)) :: rows) :: one, (raw.set 2 (.str (quoted t)) :: rows) :: one, hcb, ?_, ?_, hzb _, ?_⟩
    · exact hput raw ver lit
    · simp only [elemsIn]
      rw [hdec, Option.bind_some]
      simp only [Option.bind_some]
      rw [C58_round_trip _ _ (managedJson_wf _), Option.bind_some,
        managedOf_managedJson _ (by intro l hl; cases hl; intro r hr; cases hr) (hg _), Option.bind_some, V8.Form.encodeForm_set, hb]
      rfl
    · exact one_back _ hone

/-- what a build reads where an extraction wrote the code of a managed form -/
theorem inline_entries {z : Zero} {form : List File} {v : Text} {j : JT} {d : File} {code : Text}
    (hn : ∀ k ∈ [infoKey objWord, encKey objWord], k ∉ (formPlaces ['1'] z form v).map (·.1) → entry j k = none)
    (hj : ∀ q ∈ formPlaces ['1'] z form v, entry j q.1 = q.2) (hz : z = .inline d code) :
    entry j (infoKey objWord) = some (.str elsewhereCode) ∧ entry j (encKey objWord) = none := by
  subst hz
  refine ⟨hj (infoKey objWord, some _) (by unfold formPlaces; simp), hn _ (List.mem_cons_of_mem _ List.mem_cons_self) ?_⟩
  unfold formPlaces
  simp only [List.map_cons, List.map_nil]
  decide +kernel

/-- the data of a form come back -/
theorem kind_back {x : Ext} {y : Bld} {g : Lim} {con : Option Text} {F : Text → Option Node} {f : FCls} {u ty : Text} {z : Zero} {one : List File}
    {v : Text × Option Decoder} {e : List File × JT} {S : Text → Option Node} {j : JT}
    (hok : FormOk y.win g x.auto con ty (F (dot u ['0'])) (F (dot u ['1']))) (hg : g.Good) (hauto : y.auto = x.auto)
    (hz : zeroOut ty (F (dot u ['0'])) = some z) (ho : oneOut (fileAt F (dot u ['1'])) = some one)
    (hv : decoderOf ty (firstOf ty z ++ one) = some v) (he : elemsOut g x.auto con v.2 (firstOf ty z ++ one) = some e)
    (hj : ∀ q ∈ formPlaces ty z e.1 v.1, entry j q.1 = q.2)
    (hn : ∀ k ∈ [infoKey objWord, encKey objWord], k ∉ (formPlaces ty z e.1 v.1).map (·.1) → entry j k = none)
    (h1 : fileIn S (bslName f.name objWord) = (codeFiles x.win z).1) (h2 : fileIn S (binName f.name objWord) = (codeFiles x.win z).2)
    (h3 : fileIn S (elemName f.name) = some (fileOf x.win e.2)) :
    ∃ code form1 form2, codeBack f.name S j = some code ∧ (if ty = ['0'] then some e.1 else putCode code e.1) = some form1 ∧
      elemsIn g y.auto con ty (fileIn S (elemName f.name)) form1 = some form2 ∧ zeroBack y.win ty j code form2 = some (F (dot u ['0'])) ∧
      (form2[1]?).map (fun d => Node.file (braceFile y.win d)) = F (dot u ['1']) := by
  rw [h3]
  generalize hF0 : F (dot u ['0']) = n0 at hok hz ⊢
  generalize hF1 : F (dot u ['1']) = n1 at hok ⊢
  cases hok with
  | bare =>
    have ho2 : one = [] := by
      unfold fileAt at ho
      rw [hF1] at ho
      cases ho
      rfl
    subst ho2
    cases hz
    cases hv
    cases he
    have hi : entry j (infoKey objWord) = none := hn _ List.mem_cons_self (by decide +kernel)
    have hh : hasCode j = false := by unfold hasCode; rw [hi]
    refine ⟨none, [], [], ?_, rfl, rfl, ?_, rfl⟩
    · unfold codeBack; rw [hh]; rfl
    · unfold zeroBack; rw [if_pos rfl, hh]; rfl
  | ordinary raw rows m _ wf oneOk code text elems =>
    have hone := oneOut_ok ho (by rw [hF1]; exact oneOk)
    have hz2 : z = .apart (raw :: rows) (readRaw true (some m)).1 (readRaw true (some m)).2 := by
      have e1 : formDir (braceFile y.win (raw :: rows)) m "form".toList = some (braceFile y.win (raw :: rows)) := by unfold formDir; rw [if_pos rfl]
      have e2 : formDir (braceFile y.win (raw :: rows)) m "module".toList = some m := by unfold formDir; rw [if_neg (by decide), if_pos rfl]
      unfold zeroOut at hz
      rw [if_pos rfl] at hz
      simp only [e1, e2, Option.bind_some, C59_brace_file_round_trip y.win _ (List.cons_ne_nil _ _) wf, Option.map_some, Option.some.injEq] at hz
      exact hz.symm
    subst hz2
    simp only [firstOf, List.cons_append, List.nil_append] at hv he
    have hi : entry j (infoKey objWord) = some (.int 1) := hj (infoKey objWord, some (.int 1)) (by unfold formPlaces; simp)
    have henc : entry j (encKey objWord) = some (.str (encName (readRaw true (some m)).2)) := hj (encKey objWord, some _) (by unfold formPlaces; simp)
    have hh : hasCode j = true := by unfold hasCode; rw [hi]; rfl
    have hei : encIn j = some (readRaw true (some m)).2 := by
      unfold encIn
      rw [henc]
      unfold encOf
      rw [henc]
      exact encOf_name _
    obtain ⟨c, hc1, hc2⟩ := module_back x.win y.win m code text
    have hcb : codeBack f.name S j = some (some c) := by
      unfold codeBack
      rw [if_pos hh, hei, Option.bind_some, h1, h2]
      simp only [codeFiles]
      rw [hc1]
      rfl
    have hzb : ∀ more, zeroBack y.win ['0'] j (some c) ((raw :: rows) :: more) = some (some (.dir (formDir (braceFile y.win (raw :: rows)) m))) := by
      intro more
      unfold zeroBack
      rw [if_pos rfl, if_pos hh]
      simp only [hei, Option.bind_some, Option.getD_some, hc2, Option.map_some]
    refine ⟨some c, e.1, (raw :: rows) :: one, hcb, by rw [if_pos rfl], ?_, hzb one, ?_⟩
    · obtain ⟨vt, vd⟩ := v
      cases vd with
      | none =>
        cases he
        simp only [elemsIn]
        rw [hv]
        rfl
      | some dec =>
        cases dec with
        | managed => exact (decoder_not_managed hv).elim
        | ordinary ni ver =>
          rw [decoder_first ['0'] (raw :: rows) one []] at hv
          have hel := elems vt ni ver hv
          rw [hauto]
          cases hx : x.auto with
          | false =>
            rw [hx] at hel he
            obtain ⟨raw', s, hd, hk, hb⟩ := hel
            simp only [elemsOut, V8.OForm.takeApart, hd] at he
            rw [if_neg (by decide)] at he
            cases he
            simp only [elemsIn]
            rw [decoder_ordinary hv (V8.OForm.formOut_zero hd)]
            simp only [Option.bind_some]
            rw [if_neg (by decide), C58_round_trip _ _ (ordinaryJson_wf ver s), Option.bind_some, ordinaryOf_ordinaryJson ver s hk, Option.bind_some, hb]
            rfl
          | true =>
            rw [hx] at hel he
            obtain ⟨raw', s, hd, hk, hb⟩ := hel
            simp only [elemsOut, V8.OAuto.takeApart, hd] at he
            rw [if_pos trivial] at he
            cases he
            simp only [elemsIn]
            rw [decoder_ordinary hv (V8.OAuto.formOut_zero hd)]
            simp only [Option.bind_some]
            rw [if_pos trivial, C58_round_trip _ _ (autoJson_wf ver s), Option.bind_some,
              autoOf_autoJson ver s hk (V8.OAuto.form_shaped _ _ _ _ _ hd), Option.bind_some, hb]
            rfl
    · rw [← hF1]
      exact one_back _ hone
  | managed raw rows code _ wf oneOk ver lit cr mark elems =>
    subst hF1
    obtain ⟨form1, form2, b1, b2, b3, b4, b5⟩ := managed_back (x := x) (t := code) (f := f) wf oneOk ver lit elems hg hz ho hv he
      (fun hj hzz => by
        obtain ⟨hi, henc⟩ := inline_entries hn hj hzz
        exact code_inline x.win f.name S j code cr mark hi henc (by rw [h1, hzz]; rfl)) hj h3
    rw [V8.Form.set_same _ _ _ lit] at b4
    rw [h3] at b3
    exact ⟨some (.text code), form1, form2, b1, by rw [if_neg (by decide)]; exact b2, b3, b4, b5⟩

/-! ## the description -/

theorem formPlaces_keys (ty : Text) (z : Zero) (form : List File) (v : Text) :
    ((formPlaces ty z form v).map (·.1)).Nodup ∧
      ∀ k ∈ (formPlaces ty z form v).map (·.1), k ∈ [typeWord, formWord, encKey objWord, infoKey objWord, versionWord] := by
  unfold formPlaces
  cases z with
  | apart _ _ enc => simp only [List.map_cons, List.map_nil]; decide +kernel
  | inline _ _ => simp only [List.map_cons, List.map_nil]; decide +kernel
  | missing =>
    by_cases h : form = []
    · simp only [h, if_true, List.map_cons, List.map_nil]; decide +kernel
    · simp only [h, if_false, List.map_cons, List.map_nil]; decide +kernel

theorem formPlaces_wf {ty : Text} {z : Zero} {form : List File} {v : Text} {m : Text} {w : JT} (h : (m, some w) ∈ formPlaces ty z form v) : w.WF := by
  have hs : ∀ t : Text, (JT.str t).WF := str_wf
  unfold formPlaces at h
  cases z with
  | apart _ _ enc =>
    simp only [List.mem_cons, List.not_mem_nil, or_false, Prod.mk.injEq, Option.some.injEq] at h
    rcases h with ⟨_, rfl⟩ | ⟨_, rfl⟩ | ⟨_, rfl⟩ | ⟨_, rfl⟩ | ⟨_, rfl⟩
    exacts [hs _, formJson_wf _, hs _, int_wf _, hs _]
  | inline _ _ =>
    simp only [List.mem_cons, List.not_mem_nil, or_false, Prod.mk.injEq, Option.some.injEq] at h
    rcases h with ⟨_, rfl⟩ | ⟨_, rfl⟩ | ⟨_, rfl⟩ | ⟨_, rfl⟩
    exacts [hs _, hs _, formJson_wf _, hs _]
  | missing =>
    by_cases hf : form = []
    · simp only [hf, if_true, List.mem_cons, List.not_mem_nil, or_false, Prod.mk.injEq, Option.some.injEq] at h
      rcases h with ⟨_, rfl⟩ | ⟨_, rfl⟩ | ⟨_, rfl⟩
      exacts [hs _, hs _, formJson_wf _]
    · simp only [hf, if_false, List.mem_cons, List.not_mem_nil, or_false, Prod.mk.injEq, Option.some.injEq] at h
      rcases h with ⟨_, rfl⟩ | ⟨_, rfl⟩ | ⟨_, rfl⟩
      exacts [hs _, formJson_wf _, hs _]

/-- the entries of the description that are there for every object -/
def ownKeys : List Text := ["name".toList, "name2".toList, "comment".toList, "header".toList]

theorem places_split (ver : Text) (info : Info) (header : Val) (ps : List (Place JT)) :
    (places ver info header ps).map (·.1) = ownKeys ++ ps.map (·.1) ++ ["obj_version".toList] := by
  unfold places
  simp only [List.map_append, List.map_cons, List.map_nil]
  rfl

theorem places_nodup (ver : Text) (info : Info) (header : Val) {ps : List (Place JT)} (h1 : (ps.map (·.1)).Nodup)
    (h2 : ∀ k ∈ ps.map (·.1), k ∈ [typeWord, formWord, encKey objWord, infoKey objWord, versionWord]) :
    ((places ver info header ps).map (·.1)).Nodup := by
  have hd : ∀ k ∈ [typeWord, formWord, encKey objWord, infoKey objWord, versionWord], k ∉ ownKeys ∧ k ≠ "obj_version".toList := by decide +kernel
  rw [places_split, List.append_assoc, List.nodup_append]
  refine ⟨by decide +kernel, ?_, ?_⟩
  · rw [List.nodup_append]
    refine ⟨h1, List.nodup_cons.mpr ⟨List.not_mem_nil, List.nodup_nil⟩, ?_⟩
    intro a ha b hb he
    rw [List.mem_singleton] at hb
    exact (hd a (h2 a ha)).2 (he.trans hb)
  · intro a ha b hb he
    rcases List.mem_append.mp hb with hb | hb
    · exact (hd b (h2 b hb)).1 (he ▸ ha)
    · rw [List.mem_singleton] at hb
      have hno : ∀ k ∈ ownKeys, k ≠ "obj_version".toList := by decide +kernel
      exact hno a ha (he.trans hb)

theorem places_wf {ver : Text} {info : Info} {header : Val} {ty : Text} {z : Zero} {form : List File} {v : Text}
    (hn : info.name2.Pairwise (fun a b => a.1 ≠ b.1)) : (JT.obj (written (places ver info header (formPlaces ty z form v)))).WF := by
  obtain ⟨h1, h2⟩ := formPlaces_keys ty z form v
  rw [JT.WF]
  refine ⟨written_keys _ (places_nodup ver info header h1 h2), wfd_written _ ?_⟩
  intro m w hm
  unfold places at hm
  simp only [List.mem_append, List.mem_cons, List.not_mem_nil, or_false] at hm
  rcases hm with ((h | h) | h) | h
  · unfold V8.Leaf.names at h
    simp only [List.mem_cons, List.not_mem_nil, or_false, Prod.mk.injEq] at h
    rcases h with ⟨_, h⟩ | ⟨_, h⟩ | ⟨_, h⟩
    · cases h; exact str_wf _
    · cases h
      rw [JT.WF]
      exact ⟨by rw [List.pairwise_map]; exact hn, names_wf _⟩
    · cases h; exact str_wf _
  · cases h; exact jsonOf_wf _
  · exact formPlaces_wf h
  · cases h; exact str_wf _

theorem formOut_some {x : Ext} {g : Lim} {con : Option Text} {f : FCls} {F : Text → Option Node} {u : Text} {info : Info} {src : List (Place Node)}
    (h : formOut x g con f F u = some (info, src)) : ∃ b d c hd h' r ty z one v e, F u = some (.file b) ∧ braceRead b = some d ∧
      clsAt (rootVal d) f.site = some c ∧ getAt (rootVal d) c.1.path = some (.list hd) ∧ decodeHeader x.valid x.p true hd = .ok (info, h') ∧
      setAt (rootVal d) c.1.path (.list h') = some r ∧ typeAt (rootVal d) f.site = some ty ∧ zeroOut ty (F (dot info.uuid ['0'])) = some z ∧
      oneOut (fileAt F (dot info.uuid ['1'])) = some one ∧ decoderOf ty (firstOf ty z ++ one) = some v ∧
      elemsOut g x.auto con v.2 (firstOf ty z ++ one) = some e ∧
      src = nodes [(idName f.name, some (fileOf x.win (idJson info []))),
                (objName f.name, some (fileOf x.win (.obj (written (places c.2 info r (formPlaces ty z e.1 v.1)))))),
                (bslName f.name objWord, (codeFiles x.win z).1), (binName f.name objWord, (codeFiles x.win z).2),
                (elemName f.name, some (fileOf x.win e.2))] := by
  unfold formOut at h
  cases hF : F u with
  | none => rw [hF] at h; cases h
  | some nd =>
    rw [hF] at h
    cases nd with
    | dir f => cases h
    | file b =>
      simp only [Option.bind_eq_some_iff] at h
      obtain ⟨d, hb, c, hc, h⟩ := h
      cases hg : getAt (rootVal d) c.1.path with
      | none => rw [hg] at h; cases h
      | some v =>
        rw [hg] at h
        cases v with
        | none => cases h
        | str _ => cases h
        | list hd =>
          simp only at h
          cases hdec : decodeHeader x.valid x.p true hd with
          | error e => rw [hdec] at h; cases h
          | ok q =>
            obtain ⟨i, h'⟩ := q
            rw [hdec] at h
            simp only [Option.bind_eq_some_iff, Option.map_eq_some_iff] at h
            obtain ⟨r, hr, ty, hty, z, hz, one, ho, v, hv, e, he, hx⟩ := h
            cases hx
            exact ⟨b, d, c, hd, h', r, ty, z, one, v, e, rfl, hb, hc, hg, hdec, hr, hty, hz, ho, hv, he, rfl⟩

/-- what an extraction leaves in the sources of a form, as a build reads it -/
structure Sources (x : Ext) (f : FCls) (info : Info) (r : Val) (ty : Text) (z : Zero) (v : Text) (e : List File × JT) (S : Text → Option Node) (j : JT) :
    Prop where
  id : fileIn S (idName f.name) = some (fileOf x.win (idJson info []))
  obj : fileIn S (objName f.name) = some (fileOf x.win j)
  read : readFile (fileOf x.win j) = some j
  bsl : fileIn S (bslName f.name objWord) = (codeFiles x.win z).1
  bin : fileIn S (binName f.name objWord) = (codeFiles x.win z).2
  elem : fileIn S (elemName f.name) = some (fileOf x.win e.2)
  has : ∀ q ∈ formPlaces ty z e.1 v, entry j q.1 = q.2
  hasNot : ∀ k ∈ [infoKey objWord, encKey objWord], k ∉ (formPlaces ty z e.1 v).map (·.1) → entry j k = none
  name : textAt j "name".toList = some info.name
  header : treeAt j "header".toList = some r
  type : textAt j typeWord = some ty
  form : formAt j = some e.1

theorem form_sources {x : Ext} {f : FCls} {info : Info} {r : Val} {ty ver v : Text} {z : Zero} {e : List File × JT} {hd h' : List Val}
    (hdec : decodeHeader x.valid x.p true hd = .ok (info, h')) :
    Sources x f info r ty z v e (folder (nodes [(idName f.name, some (fileOf x.win (idJson info []))),
                (objName f.name, some (fileOf x.win (.obj (written (places ver info r (formPlaces ty z e.1 v)))))),
                (bslName f.name objWord, (codeFiles x.win z).1), (binName f.name objWord, (codeFiles x.win z).2),
                (elemName f.name, some (fileOf x.win e.2))])) (.obj (written (places ver info r (formPlaces ty z e.1 v)))) := by
  generalize hP : places ver info r (formPlaces ty z e.1 v) = P
  have hnd : ((nodes [(idName f.name, some (fileOf x.win (idJson info []))), (objName f.name, some (fileOf x.win (.obj (written P)))),
      (bslName f.name objWord, (codeFiles x.win z).1), (binName f.name objWord, (codeFiles x.win z).2),
      (elemName f.name, some (fileOf x.win e.2))]).map (·.1)).Nodup := by
    rw [nodes_names]
    have : ([(idName f.name, some (fileOf x.win (idJson info []))), (objName f.name, some (fileOf x.win (.obj (written P)))),
      (bslName f.name objWord, (codeFiles x.win z).1), (binName f.name objWord, (codeFiles x.win z).2),
      (elemName f.name, some (fileOf x.win e.2))] : List (Place Bytes)).map (·.1) = ["id.json".toList, "json".toList, dot objWord "bsl".toList, dot objWord "bin".toList,
        "elem.json".toList].map (dot f.name) := by
      simp only [List.map_cons, List.map_nil, idName, objName, bslName, binName, elemName, dot, List.append_assoc, List.cons_append, List.nil_append]
    rw [this]
    rw [List.Nodup, List.pairwise_map]
    have hk : (["id.json".toList, "json".toList, dot objWord "bsl".toList, dot objWord "bin".toList, "elem.json".toList] : List Text).Nodup := by decide +kernel
    exact hk.imp (fun h e => h (dot_inj e))
  have hfile : ∀ (n : Text) (w : Option Bytes), (n, w) ∈ [(idName f.name, some (fileOf x.win (idJson info []))),
      (objName f.name, some (fileOf x.win (.obj (written P)))), (bslName f.name objWord, (codeFiles x.win z).1),
      (binName f.name objWord, (codeFiles x.win z).2), (elemName f.name, some (fileOf x.win e.2))] →
      fileIn (folder (nodes [(idName f.name, some (fileOf x.win (idJson info []))), (objName f.name, some (fileOf x.win (.obj (written P)))),
      (bslName f.name objWord, (codeFiles x.win z).1), (binName f.name objWord, (codeFiles x.win z).2),
      (elemName f.name, some (fileOf x.win e.2))])) n = w := by
    intro n w hm
    exact fileIn_of (folder_place _ n (w.map Node.file) hnd (List.mem_map.mpr ⟨(n, w), hm, rfl⟩))
  generalize hS : folder (nodes [(idName f.name, some (fileOf x.win (idJson info []))), (objName f.name, some (fileOf x.win (.obj (written P)))),
      (bslName f.name objWord, (codeFiles x.win z).1), (binName f.name objWord, (codeFiles x.win z).2),
      (elemName f.name, some (fileOf x.win e.2))]) = S at hfile ⊢
  have hid := hfile (idName f.name) _ List.mem_cons_self
  have hob := hfile (objName f.name) _ (List.mem_cons_of_mem _ List.mem_cons_self)
  have hbsl := hfile (bslName f.name objWord) _ (List.mem_cons_of_mem _ (List.mem_cons_of_mem _ List.mem_cons_self))
  have hbin := hfile (binName f.name objWord) _ (List.mem_cons_of_mem _ (List.mem_cons_of_mem _ (List.mem_cons_of_mem _ List.mem_cons_self)))
  have helem := hfile (elemName f.name) _ (List.mem_cons_of_mem _ (List.mem_cons_of_mem _ (List.mem_cons_of_mem _ (List.mem_cons_of_mem _ List.mem_cons_self))))
  obtain ⟨k1, k2⟩ := formPlaces_keys ty z e.1 v
  have hkn : (P.map (·.1)).Nodup := by rw [← hP]; exact places_nodup ver info r k1 k2
  have hwf : (JT.obj (written P)).WF := by rw [← hP]; exact places_wf (decode_names hdec)
  have hread := C58_round_trip x.win _ hwf
  have hent : ∀ q ∈ P, entry (.obj (written P)) q.1 = q.2 := fun q hq => dget_place _ q.1 q.2 hkn hq
  have hin : ∀ q ∈ formPlaces ty z e.1 v, q ∈ P := by
    intro q hq
    rw [← hP]
    exact List.mem_append_left _ (List.mem_append_right _ hq)
  have hout : ∀ k ∈ [infoKey objWord, encKey objWord], k ∉ (formPlaces ty z e.1 v).map (·.1) → entry (.obj (written P)) k = none := by
    intro k hk hn
    refine dget_absent _ _ ?_
    rw [← hP, places_split]
    have : ∀ k ∈ [infoKey objWord, encKey objWord], k ∉ ownKeys ∧ k ≠ "obj_version".toList := by decide +kernel
    intro hm
    rcases List.mem_append.mp hm with hm | hm
    · rcases List.mem_append.mp hm with hm | hm
      · exact (this k hk).1 hm
      · exact hn hm
    · exact (this k hk).2 (List.mem_singleton.mp hm)
  have htxt : ∀ k s, (k, some (JT.str s)) ∈ P → textAt (.obj (written P)) k = some s := fun k s hq => text_of _ k s (hent _ hq)
  have hname : textAt (.obj (written P)) "name".toList = some info.name := htxt _ _ (by
    rw [← hP]; exact List.mem_append_left _ (List.mem_append_left _ (List.mem_append_left _ List.mem_cons_self)))
  have htree : treeAt (.obj (written P)) "header".toList = some r := tree_of _ _ _ (hent ("header".toList, some (jsonOf r)) (by
    rw [← hP]; exact List.mem_append_left _ (List.mem_append_left _ (List.mem_append_right _ List.mem_cons_self))))
  obtain ⟨c1, c2, _⟩ := formPlaces_common ty z e.1 v
  have htype := htxt _ _ (hin _ c1)
  have hform := formAt_formJson _ _ (hent _ (hin _ c2))
  exact ⟨hid, hob, hread, hbsl, hbin, helem, fun q hq => hent q (hin q hq), hout, hname, htree, htype, hform⟩

/-- what a build reads from the sources of a form, and the object it makes of the header -/
theorem form_read {x : Ext} {y : Bld} {g : Lim} {con : Option Text} {f : FCls} {F : Text → Option Node} {u : Text} {d : List (List Val)} {c : Cls}
    {ver ty : Text} {info : Info} {src : List (Place Node)} (hf : FormFit x y g con F f u d c ver ty) (hp : y.p = x.p)
    (hx : formOut x g con f F u = some (info, src)) :
    ∃ z one v e r j, info.uuid = u ∧ zeroOut ty (F (dot info.uuid ['0'])) = some z ∧ oneOut (fileAt F (dot info.uuid ['1'])) = some one ∧
      decoderOf ty (firstOf ty z ++ one) = some v ∧ elemsOut g x.auto con v.2 (firstOf ty z ++ one) = some e ∧
      Sources x f info r ty z v.1 e (folder src) j ∧ clsAt r f.site = some (c, ver) ∧
      buildVal y c [] ⟨fileOf x.win (idJson info []), fileOf x.win j⟩ = some (info.uuid, info.name, rootVal d) := by
  obtain ⟨b, d', cv, hd, h', r, ty', z, one, v, e, hF, hb, hc, hg, hdec, hs, hty, hz, ho, hv, he, rfl⟩ := formOut_some hx
  rw [hf.file] at hF
  cases hF
  rw [C59_brace_file_round_trip y.win d hf.ne hf.wf] at hb
  cases hb
  rw [hf.place] at hc
  cases hc
  rw [hf.type] at hty
  cases hty
  simp only at hg hs
  have hhd : headerOf c d = hd := by unfold headerOf; rw [hg]
  obtain ⟨l, tok, h1, h2, hvalid, _⟩ := decode_ok hdec
  have hu : info.uuid = u := by
    obtain ⟨l', g1, g2⟩ := hf.uuid
    rw [hhd, h1] at g1
    cases g1
    rw [h2] at g2
    exact Val.str.inj (Option.some.inj g2)
  have hsrc := form_sources (f := f) (r := r) (ty := ty) (ver := ver) (v := v.1) (z := z) (e := e) hdec
  generalize hS : folder _ = S at hsrc ⊢
  generalize hJ : JT.obj (written (places ver info r (formPlaces ty z e.1 v.1))) = j at hsrc hS
  refine ⟨z, one, v, e, r, j, hu, hz, ho, hv, he, hsrc, clsAt_kept hf.place hs, ?_⟩
  obtain ⟨q, _, hcq, _, _⟩ := clsAt_some hf.place
  have henc : encodeHeader y.p y.parent ⟨info.uuid, info.name, [], []⟩ h' = some hd := by
    obtain ⟨name, hn, hpre⟩ := hf.pre
    rw [hhd] at hn hpre
    rw [hp, ← (C33_rebuilt_iff_partial x.valid x.p y.parent name hd h' info hdec hn).mpr hpre]
    rfl
  have e2 : setAt r c.path (.list hd) = some (rootVal d) := by
    rw [setAt_setAt _ _ _ _ _ hs, setAt_getAt _ _ _ hg]
  unfold buildVal
  rw [C58_round_trip _ _ (idJson_wf info [] List.nodup_nil List.not_mem_nil), hsrc.read]
  simp only [Option.bind_some, textAt_id, hsrc.name, hsrc.header]
  have i1 : showIds c y.ver (idJson info []) r = some r := by subst hcq; rfl
  have i2 : putIncludes y c [] r = some r := by subst hcq; rfl
  have i3 : stampIn y c (rootVal d) = some (rootVal d) := by subst hcq; rfl
  rw [i1]
  simp only [Option.bind_some, i2, getAt_setAt _ _ _ _ hs, henc, e2, i3, Option.map_some]

/-- **C64.**  A form comes back with its files. -/
theorem form_back (x : Ext) (y : Bld) (g : Lim) (con : Option Text) (f : FCls) (F : Text → Option Node) (u : Text) (d : List (List Val)) (c : Cls)
    (ver ty : Text) (info : Info) (src : List (Place Node)) (hf : FormFit x y g con F f u d c ver ty) (hp : y.p = x.p) (hauto : y.auto = x.auto)
    (hgood : g.Good) (hx : formOut x g con f F u = some (info, src)) :
    info.uuid = u ∧ x.valid u = true ∧ formHas f (folder src) = true ∧
    formBack y g con f (folder src) = some (some ⟨u, info.name, .str u⟩, written ((formNames u).map (fun n => (n, F n)))) := by
  have hvalid : x.valid info.uuid = true := by
    obtain ⟨_, _, _, _, _, _, _, _, _, _, _, _, _, _, _, hdec, _⟩ := formOut_some hx
    obtain ⟨_, _, _, _, h, _⟩ := decode_ok hdec
    exact h
  obtain ⟨z, one, v, e, r, j, hu, hz, ho, hv, he, hsrc, hplace, hval⟩ := form_read hf hp hx
  generalize folder src = S at hsrc ⊢
  refine ⟨hu, hu ▸ hvalid, ?_, ?_⟩
  · unfold formHas
    rw [hsrc.id, hsrc.obj]
    rfl
  rw [hu] at hz ho
  obtain ⟨code, form1, form2, b1, b2, b3, b4, b5⟩ := kind_back (f := f) hf.data hgood hauto hz ho hv he hsrc.has hsrc.hasNot hsrc.bsl hsrc.bin hsrc.elem
  unfold formBack
  rw [hsrc.id, hsrc.obj]
  simp only [hsrc.read, Option.bind_some, hsrc.header, hplace, hsrc.type, hsrc.form, b1, b2, b3, hval, rootOf_rootVal, b4, Option.map_some, b5]
  rw [hu]
  unfold formNames
  simp only [List.map_cons, List.map_nil, hf.file, b5]

end V8.FormObj
