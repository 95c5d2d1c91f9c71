import Verif.Props.EditRoot
import Verif.Props.RootSpec
/-
C81: a product is extracted, a module is edited, the sources are built.
-/
namespace V8.Edit
open V8.Brace V8.Enc V8.JsonText V8.Header V8.Store V8.Tree V8.Module V8.Embed
open V8.Nested hiding Handler Env
open V8.Object hiding Cls
open V8.Misc (Cls)

/-! ### specification -/

/-- the stored module `nd` has the text file `raw`: it is this file, or a folder with it as `text` beside brace data in `info` -/
def HasText : Node → Bytes → Prop
  | .file b, raw => b = raw
  | .dir f, raw => f "text".toList = some raw ∧ ∃ bi i, f "info".toList = some bi ∧ braceRead bi = some i ∧ i ≠ []

/-- the text file `raw` is kept in the encoding `e`: UTF-8 with or without a byte order mark, or windows-1251 if it is no UTF-8 -/
def KeptIn (raw : Bytes) : EncName → Prop
  | .utf8 => ∃ t, raw = utf8 t ∧ t.head? ≠ some bom
  | .utf8sig => ∃ t, raw = bom8 ++ utf8 t
  | .cp1251 => utf8Text raw = none ∧ ∃ t, cpText raw = some t
  | _ => False

/-- In the folder of an object of the type `ty` with the identifier `u` the `.bsl` file of the module `m` (name in the sources, number in the product) is given the text `t`: `S` is the folder
before and `S'` after. -/
def TextEdit (C : Text → Option Class) (u : Text) (m : Text × Text) (t : Text) (ty : Text) (S S' : Text → Option Node) : Prop :=
  ∃ cl k, C ty = some cl ∧ kindIn cl = some k ∧ m ∈ k.codes ∧
    (∃ bi j, S (k.name ++ ".id.json".toList) = some (.file bi) ∧ readFile bi = some j ∧ textAt j "uuid".toList = some u) ∧
    (∀ x, x ≠ k.name ++ '.' :: m.1 ++ ".bsl".toList → S' x = S x) ∧
    ∃ nb, S' (k.name ++ '.' :: m.1 ++ ".bsl".toList) = some (.file nb) ∧ Saved nb t

/-- the tree `d'` of source folders is the tree `d`, but the files of one object, of the type given, are `S'` instead of `S`, related by `R` -/
inductive EditedAt (R : Text → (Text → Option Node) → (Text → Option Node) → Prop) : Text → V8.Tree.Dir → V8.Tree.Dir → Prop where
  | here {ty : Text} {files files' : List (Place Node)} {subs : Subs} (h : R ty (folder files) (folder files')) : EditedAt R ty (.mk files subs) (.mk files' subs)
  | deeper {ty : Text} {files : List (Place Node)} {l r : List (Text × Text × V8.Tree.Dir)} {sty snm : Text} {d d' : V8.Tree.Dir} (hd : EditedAt R sty d d') :
      EditedAt R ty (.mk files (.ofList (l ++ (sty, snm, d) :: r))) (.mk files (.ofList (l ++ (sty, snm, d') :: r)))

/-! ### what extraction records about a module -/

theorem KeptIn.recorded {raw : Bytes} {e : EncName} (h : KeptIn raw e) (cd : Bool) : (readRaw cd (some raw)).2 = e := by
  rw [C37_module_encoding]
  unfold KeptIn at h
  cases e with
  | utf8 =>
    obtain ⟨t, rfl, h⟩ := h
    rw [utf8Text_utf8]
    simp only
    rw [if_neg h]
  | utf8sig =>
    obtain ⟨t, rfl⟩ := h
    have : bom8 ++ utf8 t = utf8 (bom :: t) := by
      rw [← utf8_bom]
      exact (utf8_append [bom] t).symm
    rw [this, utf8Text_utf8]
    simp only
    exact if_pos List.head?_cons
  | cp1251 =>
    obtain ⟨h1, t, h2⟩ := h
    rw [h1, h2]
  | utf16 => exact h.elim
  | utf32 => exact h.elim
  | bin => exact h.elim

theorem KeptIn.not_bin {raw : Bytes} {e : EncName} (h : KeptIn raw e) : e ≠ .bin := by
  rintro rfl
  exact h

/-- the entries of one module -/
theorem code_recorded {w cd : Bool} {k : Text} {F : Text → Option Node} {u : Text} {c : Text × Text} {r : List (Place JT) × List (Place Bytes)} {j : JT} {nd : Node} {raw : Bytes}
    {e : EncName} (h : codeOut w cd k F u c = some r) (hj : ∀ q ∈ r.1, entry j q.1 = q.2) (hF : F (dot u c.2) = some nd) (hr : HasText nd raw) (he : KeptIn raw e) :
    (∃ i, codeInfo j c.1 = some (some i)) ∧ encOf j c.1 = some e := by
  unfold codeOut at h
  rw [Option.map_eq_some_iff] at h
  obtain ⟨st, hst, rfl⟩ := h
  have hi := hj _ List.mem_cons_self
  have hen := hj _ (List.mem_cons_of_mem _ List.mem_cons_self)
  simp only at hi hen
  rw [hF] at hst
  cases nd with
  | file b =>
    cases hst
    have hb : b = raw := hr
    subst hb
    refine ⟨⟨none, ?_⟩, ?_⟩
    · unfold codeInfo
      rw [hi]
      simp only [extractModule, Option.map_some]
      rw [if_neg (by decide), if_pos trivial]
    · unfold encOf
      rw [hen]
      have : (extractModule w cd (.file b)).enc = e := he.recorded cd
      simp only [this]
      exact encOf_name _
  | dir f =>
    obtain ⟨ht, bi, i, hbi, hbr, hne⟩ := hr
    rw [storedOf, hbi, Option.bind_some, hbr, Option.map_some, Option.some.injEq, ht] at hst
    subst hst
    refine ⟨⟨some i, codeInfo_tree j c.1 i hne hi⟩, ?_⟩
    unfold encOf
    rw [hen]
    have : (extractModule w cd (.dir i (some raw) (f "image".toList) (f "bin".toList))).enc = e := he.recorded cd
    simp only [this]
    exact encOf_name _

/-- what the extracted description of a product says about a module -/
theorem root_recorded {e : V8.Root.Env} {c : Cls} {ver : Text} {F : Text → Option Node} {info : Info} {os : List Obj} {src : List (Place Bytes)}
    (hx : V8.Root.rootOut e c ver F = some (info, os, src)) {m : Text × Text} (hm : m ∈ (V8.Root.kindOf c).codes) {nd : Node} {raw : Bytes} {en : EncName}
    (hF : F (dot info.uuid m.2) = some nd) (hr : HasText nd raw) (hk : KeptIn raw en) :
    ∃ b j i, folder src (objName (V8.Root.kindOf c).name) = some b ∧ readFile b = some j ∧ textAt j "uuid".toList = some info.uuid ∧ codeInfo j m.1 = some (some i) ∧
      encOf j m.1 = some en := by
  obtain ⟨root, fu', v, hd', h', h1, b, ps, t, g1, g2, g3, g4, g5, g6, g7, g8, g9, rfl⟩ := V8.Root.rootOut_some hx
  obtain ⟨r1, r2, r3, r4⟩ := V8.Root.description_read (ver := ver) (t := t) g7 (decode_names g5)
  obtain ⟨front, other, compat, vb, parts, k1, k2, k3, k4, k5, rfl⟩ := V8.Root.besideOut_some g7
  generalize hJ : JT.obj (written (V8.Root.description c ver front (other ++ compat ++ parts.1) info t)) = j at r1 r2 r3 r4
  have hjp : ∀ q ∈ parts.1, entry j q.1 = q.2 := fun q hq => r2 q (V8.Root.mem_after (List.mem_append_right _ hq))
  have hju : entry j "uuid".toList = some (.str info.uuid) := r2 _ (V8.Root.mem_head (V8.Root.head_uuid c info t).1)
  have hobj : folder (parts.2 ++ vb ++ [(objName (V8.Root.kindOf c).name, some (fileOf e.x.win j))]) (objName (V8.Root.kindOf c).name) = some (fileOf e.x.win j) :=
    folder_place _ _ _ (by rw [r4]; exact V8.Root.sources_nodup c) (List.mem_append_right _ List.mem_cons_self)
  have hjtext : textAt j "uuid".toList = some info.uuid := by
    subst hJ
    simp only [entry] at hju
    simp only [textAt, hju]
  unfold V8.Root.partsOut at k5
  simp only [Option.bind_eq_some_iff, Option.map_eq_some_iff] at k5
  obtain ⟨help, _, image, _, files, _, codes, hcodes, infos, _, rfl⟩ := k5
  obtain ⟨q, hq, hq1, _⟩ := V8.Root.codesOut_mem hcodes m hm
  have hjq : ∀ p ∈ q.1, entry j p.1 = p.2 := by
    intro p hp
    refine hjp p ?_
    have := hq1 p hp
    simp only [List.mem_append]
    tauto
  obtain ⟨⟨i, hi⟩, he⟩ := code_recorded hq hjq hF hr hk
  exact ⟨_, j, i, hobj, r1, hjtext, hi, he⟩

/-! ### the round trip -/

/-- **C81, edit between extraction and build.**  A product is extracted (C62), the `.bsl` file of one of its modules is given the text `t`, and the sources are built.  The build succeeds, chooses the
class that took the product apart, and writes what it would have written without the edit (`files`, by C62 the files of the product), but the module holds `t`, in the encoding it had. -/
theorem C81_extract_edit_build (types : List (Text × Text)) (C : Text → Option Class) (g : V8.FormObj.Lim) (e : V8.Root.Env) (c : Cls) (ver : Text) (F : Text → Option Node)
    (ord : Text → List Entry → List Entry) (shuf : List Text → List Text) (nm : Val → Text) (n : Nat) (info : Info) (src src' : List (Place Node)) (subs : Subs) (file fu u : Text)
    (dr dh : List (List Val)) (m : Text × Text) (nd : Node) (raw nb b : Bytes) (en : EncName) (t : Text)
    (hC : ClassesOk C) (hE : e.x.E = envOf types C) (hy : e.y.E = e.x.E) (hp : e.y.p = e.x.p) (ha : e.y.auto = e.x.auto)
    (hv0 : e.x.valid [] = false) (hT : ∀ u, e.types u ≠ some "ConfigurationExtension".toList) (hsame : V8.Misc.checkVersion e.tool e.tool = .ok ())
    (hord : ∀ id l, (ord id l).Perm l) (hshuf : ∀ l, (shuf l).Perm l) (hd : V8.Root.detect e F = some (c, ver))
    (hx : V8.Root.extractProduct e (handlers C g e.x e.y ver) c ver F n = some (info, .mk src subs)) (hok : V8.Root.ProductOk e c ver F file fu u dr dh)
    (hin : V8.Root.InnerOk types C g e c ver F nm dh)
    (hm : m ∈ (V8.Root.kindOf c).codes) (hF : F (u ++ '.' :: m.2) = some nd) (hr : HasText nd raw) (hk : KeptIn raw en)
    (hS : ∀ x, x ≠ (V8.Root.kindOf c).name ++ '.' :: m.1 ++ ".bsl".toList → folder src' x = folder src x)
    (hnb : folder src' ((V8.Root.kindOf c).name ++ '.' :: m.1 ++ ".bsl".toList) = some (.file nb)) (hs : Saved nb t)
    (hb : Holds e.y.win en (if V8.Root.directives c ver then comment t else t) b) :
    ∃ files files' names, V8.Root.buildProduct e (fun v p => handlers C g e.x { e.y with prod := p } v) ord shuf file (.mk src subs) = some (c, files) ∧
      V8.Root.buildProduct e (fun v p => handlers C g e.x { e.y with prod := p } v) ord shuf file (.mk src' subs) = some (c, files') ∧
      OnlyText (u ++ '.' :: m.2) b files files' ∧ (c ≠ .extension → names.Perm (files.map (·.1))) ∧
      ∀ x nd, (x, nd) ∈ files ↔ (V8.Root.NestedNames C e c F dh x ∧ F x = some nd) ∨ V8.Root.Written e c F u fu dr names x nd := by
  obtain ⟨files, names, h1, h2, h3⟩ := V8.Root.C62_product types C g e c ver F ord shuf nm n info (.mk src subs) file fu u dr dh hC hE hy hp ha hv0 hT hsame hord hshuf hd hx hok hin
  unfold V8.Root.extractProduct at hx
  simp only [Option.bind_eq_some_iff] at hx
  obtain ⟨⟨info', os, src0⟩, hroot, subs0, _, hx⟩ := hx
  by_cases hnod : (subs0.map (fun s => (s.1, s.2.1))).Nodup
  case neg => rw [if_neg hnod] at hx; cases hx
  rw [if_pos hnod] at hx
  simp only [Option.some.injEq, Prod.mk.injEq, V8.Tree.Dir.mk.injEq] at hx
  obtain ⟨rfl, rfl, rfl⟩ := hx
  obtain ⟨ps, tt, j, bo, _, _, hu, b1, b2, b3, b4, _⟩ := V8.Root.root_back hok hd hT hsame hroot
  have hF' : F (dot info'.uuid m.2) = some nd := by rw [hu]; exact hF
  obtain ⟨bo', j', i, c1, c2, c3, c4, c5⟩ := root_recorded hroot hm hF' hr hk
  cases c1.symm.trans b2
  cases c2.symm.trans b3
  have hbo : folder (nodes src0) ((V8.Root.kindOf c).name ++ ".json".toList) = some (.file bo) := by
    rw [folder_nodes]
    have e2 : (V8.Root.kindOf c).name ++ ".json".toList = objName (V8.Root.kindOf c).name := rfl
    rw [e2, b2]
    rfl
  obtain ⟨_, files', d1, d2⟩ := C81_product_module C g e ord shuf file (nodes src0) src' _ (V8.Root.kindOf c).name u m en t b bo nb j i c ver (by rw [fileIn_folder]; exact b1) hbo b3
    (by unfold productClass; exact b4) (by rw [c3, hu]) hm c4 c5 hk.not_bin hS hnb hs hb c files h1
  exact ⟨files, files', names, h1, d1, d2, h2, h3⟩

/-! ### nested objects -/

/-- the JSON files of an object, with what they say about a module -/
theorem parts_recorded {x : Ext} {k : Kind} {ver : Option Text} {F : Text → Option Node} {info : Info} {ids : List (Text × Val)} {r3 : Val} {p : List (Place JT) × List (Place Bytes)} (hk : Good k)
    (hpo : partsOut x.win k F info.uuid = some p) (hn : info.name2.Pairwise (fun a b => a.1 ≠ b.1)) (hin : (ids.map (·.1)).Nodup ∧ "uuid".toList ∉ ids.map (·.1))
    {src : List (Place Bytes)} (hsrc : src = p.2 ++ [(idName k.name, some (fileOf x.win (idJson info ids))), (objName k.name, some (fileOf x.win (objJson ver (written p.1) info r3)))])
    {m : Text × Text} (hm : m ∈ k.codes) {nd : Node} {raw : Bytes} {en : EncName} (hF : F (dot info.uuid m.2) = some nd) (hr : HasText nd raw) (he : KeptIn raw en) :
    ∃ bi jid bo j i, folder src (idName k.name) = some bi ∧ readFile bi = some jid ∧ textAt jid "uuid".toList = some info.uuid ∧ folder src (objName k.name) = some bo ∧
      readFile bo = some j ∧ codeInfo j m.1 = some (some i) ∧ encOf j m.1 = some en := by
  obtain ⟨a, b', c, i, ha, hb, hc, hi, rfl⟩ := partsOut_some hpo
  obtain ⟨ka, na, wa⟩ := helpOut_shape ha
  obtain ⟨kc, nc, wc⟩ := codesOut_shape hc
  obtain ⟨ki, wi⟩ := infoOut_shape hi
  have nb := blobsOut_shape hb
  have hkeys : (a.1 ++ c.1 ++ i).map (·.1) = keys k := by
    unfold keys
    rw [List.map_append, List.map_append, ka, kc, ki]
  have hkn : ((a.1 ++ c.1 ++ i).map (·.1)).Nodup := by rw [hkeys]; exact hk.keys
  have hown : ∀ q ∈ a.1 ++ c.1 ++ i, q.1 ∉ ["name".toList, "name2".toList, "comment".toList, "header".toList, "obj_version".toList] := by
    intro q hq
    exact hk.own q.1 (by rw [← hkeys]; exact List.mem_map.mpr ⟨q, hq, rfl⟩)
  have hex := extra_ok (a.1 ++ c.1 ++ i) hkn hown (by
    intro n v hm
    rcases List.mem_append.mp hm with hm | hm
    · rcases List.mem_append.mp hm with hm | hm
      · exact wa n v hm
      · exact wc n v hm
    · exact wi n v hm)
  have hnd : (src.map (·.1)).Nodup := by
    have e := hk.sources
    unfold sources at e
    rw [hsrc, List.map_append, List.map_append, List.map_append, na, nb, nc]
    exact e
  obtain ⟨q, hq, hq1, _⟩ := V8.Root.codesOut_mem hc m hm
  obtain ⟨⟨i', hi'⟩, he'⟩ := code_recorded (j := objJson ver (written (a.1 ++ c.1 ++ i)) info r3) hq (fun z hz => by
    have : z ∈ a.1 ++ c.1 ++ i := List.mem_append_left _ (List.mem_append_right _ (hq1 z hz))
    exact entry_obj ver _ info r3 z.1 z.2 hkn this (hown z this)) hF hr he
  refine ⟨_, _, _, _, i', folder_place _ (idName k.name) (some _) hnd (by rw [hsrc]; exact List.mem_append_right _ List.mem_cons_self),
    C58_round_trip _ _ (idJson_wf info ids hin.1 hin.2), textAt_id info ids,
    folder_place _ (objName k.name) (some _) hnd (by rw [hsrc]; exact List.mem_append_right _ (List.mem_cons_of_mem _ List.mem_cons_self)),
    C58_round_trip _ _ (objJson_wf ver _ info r3 hex hn), hi', he'⟩

/-- what is recorded of an object with a file of its own -/
theorem full_recorded {x : Ext} {k : Kind} {ver : Option Text} {F : Text → Option Node} {u : Text} {info : Info} {os : List Obj} {src : List (Place Bytes)} (hk : Good k)
    (hx : extractAll x k ver F u = some (info, os, src)) : (k.cls.includes = false → os = []) ∧ (∃ bi, folder src (idName k.name) = some bi) ∧ (∃ bo, folder src (objName k.name) = some bo) ∧
    (∀ jid bi, folder src (idName k.name) = some bi → readFile bi = some jid → textAt jid "uuid".toList = some info.uuid) ∧
    ∀ {m : Text × Text}, m ∈ k.codes → ∀ {nd : Node} {raw : Bytes} {en : EncName}, F (dot info.uuid m.2) = some nd → HasText nd raw → KeptIn raw en →
    ∃ bi jid bo j i, folder src (idName k.name) = some bi ∧ readFile bi = some jid ∧ textAt jid "uuid".toList = some info.uuid ∧ folder src (objName k.name) = some bo ∧
      readFile bo = some j ∧ codeInfo j m.1 = some (some i) ∧ encOf j m.1 = some en := by
  obtain ⟨b, d, h', r1, r2, ids, r3, bo, j, _, _, _, ht, _, hbo, _, _, bi, hbi, hrb⟩ := recorded hk hx
  refine ⟨?_, ⟨bi, hbi⟩, ⟨bo, hbo⟩, ?_, ?_⟩
  · intro hno
    unfold takeIncludes at ht
    rw [if_neg (by rw [hno]; exact Bool.false_ne_true)] at ht
    cases ht
    rfl
  · intro jid bi' h1 h2
    cases h1.symm.trans hbi
    cases h2.symm.trans hrb
    exact textAt_id info ids
  · intro m hm nd raw en hF hr he
    unfold extractAll at hx
    cases hF : F u with
    | none => rw [hF] at hx; cases hx
    | some nd =>
    cases nd with
    | dir f => rw [hF] at hx; cases hx
    | file b =>
    rw [hF] at hx
    simp only [Option.bind_eq_some_iff, Option.map_eq_some_iff] at hx
    obtain ⟨r, hr', p, hpo, q, hq, heq⟩ := hx
    obtain ⟨qi, qo, qs⟩ := q
    simp only [Prod.mk.injEq] at heq
    obtain ⟨rfl, rfl, rfl⟩ := heq
    have hri : r.1 = qi := extract_info hr' hq
    rw [hri] at hpo
    obtain ⟨d, hd, h', r1, r2, hbr, _, hh, hs, ht, ids, r3, hi3, rfl⟩ := extract_some hq
    exact parts_recorded hk hpo (decode_names hh) (hideIds_names hk.ids hi3) rfl hm (by assumption) hr he

/-- what is recorded of an object that is kept inside its parent -/
theorem inner_recorded {x : Ext} {k : Kind} {F : Text → Option Node} {v : Val} {info : Info} {src : List (Place Bytes)} (hk : Good k) (hx : innerAll x k F v = some (info, src)) :
    (∀ jid bi, folder src (idName k.name) = some bi → readFile bi = some jid → textAt jid "uuid".toList = some info.uuid) ∧
    ∀ {m : Text × Text}, m ∈ k.codes → ∀ {nd : Node} {raw : Bytes} {en : EncName}, F (dot info.uuid m.2) = some nd → HasText nd raw → KeptIn raw en →
    ∃ bi jid bo j i, folder src (idName k.name) = some bi ∧ readFile bi = some jid ∧ textAt jid "uuid".toList = some info.uuid ∧ folder src (objName k.name) = some bo ∧
      readFile bo = some j ∧ codeInfo j m.1 = some (some i) ∧ encOf j m.1 = some en := by
  unfold innerAll at hx
  simp only [Option.bind_eq_some_iff, Option.map_eq_some_iff] at hx
  obtain ⟨r, hr, p, hpo, q, hq, he⟩ := hx
  obtain ⟨qi, qo, qs⟩ := q
  simp only [Prod.mk.injEq] at he
  obtain ⟨rfl, rfl⟩ := he
  have hri : r.1 = qi := extractVal_info hr hq
  rw [hri] at hpo
  obtain ⟨hd, h', r1, r2, hg, hdec, hs, ht, ids, r3, hid, rfl⟩ := extractVal_some hq
  refine ⟨?_, fun hm _ _ _ hF hr he => parts_recorded hk hpo (decode_names hdec) (hideIds_names hk.ids hid) rfl hm hF hr he⟩
  intro jid bi h1 h2
  have hnd : ((p.2 ++ [(idName k.name, some (fileOf x.win (idJson qi ids))), (objName k.name, some (fileOf x.win (objJson none (written p.1) qi r3)))]).map (·.1)).Nodup := by
    rw [parts_names hpo]; exact hk.sources
  have h3 := folder_place _ (idName k.name) (some (fileOf x.win (idJson qi ids))) hnd (List.mem_append_right _ List.mem_cons_self)
  cases h1.symm.trans h3
  rw [C58_round_trip _ _ (idJson_wf qi ids (hideIds_names hk.ids hid).1 (hideIds_names hk.ids hid).2)] at h2
  cases h2
  exact textAt_id qi ids

theorem kids_from {f : Text → Val → Option (Info × V8.Tree.Dir)} : ∀ {os : List Obj} {subs : List (Text × Text × V8.Tree.Dir)}, extractKids f os = some subs →
    ∀ q ∈ subs, ∃ o ∈ os, ∃ info, q.1 = o.ty ∧ f o.ty o.orig = some (info, q.2.2)
  | [], subs, h, q, hq => by rw [extractKids] at h; cases h; cases hq
  | o :: r, subs, h, q, hq => by
    rw [extractKids] at h
    simp only [Option.bind_eq_some_iff, Option.map_eq_some_iff] at h
    obtain ⟨a, ha, b, hb, rfl⟩ := h
    rcases List.mem_cons.mp hq with rfl | hq
    · exact ⟨o, List.mem_cons_self, a.1, rfl, ha⟩
    · obtain ⟨o', h1, h2⟩ := kids_from hb q hq
      exact ⟨o', List.mem_cons_of_mem _ h1, h2⟩

theorem at_file {src : List (Place Bytes)} {n : Text} {b : Bytes} : folder (nodes src) n = some (.file b) ↔ folder src n = some b := by
  rw [folder_nodes]
  cases folder src n with
  | none => exact ⟨fun h => (by cases h), fun h => (by cases h)⟩
  | some c => exact ⟨fun h => (by cases h; rfl), fun h => (by cases h; rfl)⟩

/-- what extraction of one object records: the folder `files` of an object of the class `cl` -/
theorem out_recorded {C : Text → Option Class} (hC : ClassesOk C) {g : V8.FormObj.Lim} {x : Ext} {y : Bld} {ver : Text} {F : Text → Option Node} {con : Option Text} {ty : Text} {v : Val} {cl : Class}
    {info : Info} {os : List Obj} {files : List (Place Node)} (hcl : C ty = some cl) (ho : (handlerOf g x y ver cl).out con F v = some (info, os, files)) :
    (os ≠ [] → ∃ k, kindIn cl = some k ∧ k.cls.includes = true ∧ (∃ b, folder files (k.name ++ ".id.json".toList) = some (.file b)) ∧
      ∃ b, folder files (k.name ++ ".json".toList) = some (.file b)) ∧
    ∀ k, kindIn cl = some k → (∀ jid bi, folder files (k.name ++ ".id.json".toList) = some (.file bi) → readFile bi = some jid → textAt jid "uuid".toList = some info.uuid) ∧
      ∀ m ∈ k.codes, ∀ nd raw en, F (dot info.uuid m.2) = some nd → HasText nd raw → KeptIn raw en →
      ∃ bo j i, folder files (k.name ++ ".json".toList) = some (.file bo) ∧ readFile bo = some j ∧ codeInfo j m.1 = some (some i) ∧ encOf j m.1 = some en := by
  have e1 : ∀ k : Kind, k.name ++ ".id.json".toList = idName k.name := fun _ => rfl
  have e2 : ∀ k : Kind, k.name ++ ".json".toList = objName k.name := fun _ => rfl
  simp only [e1, e2]
  have full : ∀ k k' u, Good k' → k'.name = k.name → k'.codes = k.codes → k'.cls.includes = k.cls.includes → ∀ src, extractAll x k' (some ver) F u = some (info, os, src) → kindIn cl = some k → files = nodes src →
      (os ≠ [] → ∃ k, kindIn cl = some k ∧ k.cls.includes = true ∧ (∃ b, folder files (idName k.name) = some (.file b)) ∧ ∃ b, folder files (objName k.name) = some (.file b)) ∧
      ∀ k, kindIn cl = some k → (∀ jid bi, folder files (idName k.name) = some (.file bi) → readFile bi = some jid → textAt jid "uuid".toList = some info.uuid) ∧
        ∀ m ∈ k.codes, ∀ nd raw en, F (dot info.uuid m.2) = some nd → HasText nd raw → KeptIn raw en →
        ∃ bo j i, folder files (objName k.name) = some (.file bo) ∧ readFile bo = some j ∧ codeInfo j m.1 = some (some i) ∧ encOf j m.1 = some en := by
    intro k k' u hg hn hco hinc src hx hki hf
    obtain ⟨a1, ⟨bi, a2⟩, ⟨bo, a3⟩, a4, a5⟩ := full_recorded hg hx
    rw [hn] at a2 a3
    refine ⟨fun hne => ⟨k, hki, ?_, ⟨bi, by rw [hf]; exact at_file.mpr a2⟩, ⟨bo, by rw [hf]; exact at_file.mpr a3⟩⟩, ?_⟩
    · cases h : k.cls.includes with
      | true => rfl
      | false => exact absurd (a1 (hinc.trans h)) hne
    · intro k0 hk0
      cases hki.symm.trans hk0
      refine ⟨fun jid bi h1 h2 => a4 jid bi (by rw [hn]; rw [hf] at h1; exact at_file.mp h1) h2, ?_⟩
      intro m hm nd raw en h1 h2 h3
      obtain ⟨_, _, bo, j, i, _, _, _, b4, b5, b6, b7⟩ := a5 (by rw [hco]; exact hm) h1 h2 h3
      exact ⟨bo, j, i, by rw [hf]; rw [hn] at b4; exact at_file.mpr b4, b5, b6, b7⟩
  cases cl with
  | leaf t =>
    refine ⟨?_, fun k hk => by cases hk⟩
    intro hne
    cases v with
    | none => cases ho
    | list _ => cases ho
    | str u =>
      have ho : (V8.Leaf.leafOut x ver t F u).map (fun r => (r.1, ([] : List Obj), r.2)) = some (info, os, files) := ho
      simp only [Option.map_eq_some_iff, Prod.mk.injEq] at ho
      obtain ⟨_, _, _, h, _⟩ := ho
      exact absurd h.symm hne
  | form f =>
    refine ⟨?_, fun k hk => by cases hk⟩
    intro hne
    cases v with
    | none => cases ho
    | list _ => cases ho
    | str u =>
      have ho : (V8.FormObj.formOut x g con f F u).map (fun r => (r.1, ([] : List Obj), r.2)) = some (info, os, files) := ho
      simp only [Option.map_eq_some_iff, Prod.mk.injEq] at ho
      obtain ⟨_, _, _, h, _⟩ := ho
      exact absurd h.symm hne
  | file k =>
    cases v with
    | none => cases ho
    | list _ => cases ho
    | str u =>
      have ho : (extractAll x k (some ver) F u).map (fun r => (r.1, r.2.1, nodes r.2.2)) = some (info, os, files) := ho
      simp only [Option.map_eq_some_iff, Prod.mk.injEq] at ho
      obtain ⟨⟨i', o', src⟩, hx, rfl, rfl, rfl⟩ := ho
      exact full k k u (hC.file _ _ .none _ hcl rfl) rfl rfl rfl src hx rfl rfl
  | pick n k rest =>
    cases v with
    | none => cases ho
    | list _ => cases ho
    | str u =>
      have ho : (match F u with
          | some (.file b) => (braceRead b).bind (fun d => ((Class.pick n k rest).kindAt (rootVal d)).bind (fun k' =>
              (extractAll x k' (some ver) F u).map (fun r => (r.1, r.2.1, nodes r.2.2))))
          | _ => none) = some (info, os, files) := ho
      cases hF : F u with
      | none => rw [hF] at ho; cases ho
      | some nd =>
      cases nd with
      | dir f => rw [hF] at ho; cases ho
      | file b =>
      rw [hF] at ho
      simp only [Option.bind_eq_some_iff, Option.map_eq_some_iff, Prod.mk.injEq] at ho
      obtain ⟨d, _, k', hk', ⟨i', o', src⟩, hx, rfl, rfl, rfl⟩ := ho
      have hg := hC.file _ _ _ _ hcl hk'
      rcases kindAt_some hk' with h | ⟨n', k1, rest', h, h'⟩
      · cases h
      · cases h
        rcases h' with hh | hh
        · exact full k k' u hg (by rw [hh]) (by rw [hh]) (by rw [hh]) src hx rfl rfl
        · exact full k k' u hg (by rw [hh]) (by rw [hh]) (by rw [hh]) src hx rfl rfl
  | inner k =>
    cases v with
    | none => cases ho
    | str _ => cases ho
    | list l =>
      have ho : (innerAll x k F (.list l)).map (fun r => (r.1, ([] : List Obj), nodes r.2)) = some (info, os, files) := ho
      simp only [Option.map_eq_some_iff, Prod.mk.injEq] at ho
      obtain ⟨⟨i', src⟩, hx, rfl, rfl, rfl⟩ := ho
      refine ⟨fun hne => absurd rfl hne, ?_⟩
      intro k0 hk0
      cases hk0
      obtain ⟨a1, a2⟩ := inner_recorded (hC.inner _ _ hcl).1 hx
      refine ⟨fun jid bi h1 h2 => a1 jid bi (at_file.mp h1) h2, ?_⟩
      intro m hm nd raw en h1 h2 h3
      obtain ⟨_, _, bo, j, i, _, _, _, b4, b5, b6, b7⟩ := a2 hm h1 h2 h3
      exact ⟨bo, j, i, at_file.mpr b4, b5, b6, b7⟩

/-- in extracted sources an edit of a text is an edit of a module of the encoding found in the product -/
theorem tree_recorded {C : Text → Option Class} (hC : ClassesOk C) {g : V8.FormObj.Lim} {x : Ext} {y : Bld} {ver : Text} {F : Text → Option Node} {u : Text} {m : Text × Text} {nd : Node} {raw : Bytes}
    {en : EncName} {t : Text} (hF : F (dot u m.2) = some nd) (hr : HasText nd raw) (hk : KeptIn raw en) {ty : Text} {d d' : V8.Tree.Dir} (he : EditedAt (TextEdit C u m t) ty d d') :
    ∀ (n : Nat) (con : Option Text) (v : Val) (info : Info), extractTree (handlers C g x y ver) F n con ty v = some (info, d) → EditedIn C (ModuleEdit C u m en t) ty d d' := by
  induction he with
  | @here ty files files' subs h =>
    intro n con v info hx
    cases n with
    | zero => rw [extractTree] at hx; cases hx
    | succ n =>
    rw [extractTree] at hx
    simp only [Option.bind_eq_some_iff] at hx
    obtain ⟨hd, hK, ⟨info', os, src⟩, ho, subs0, _, hx⟩ := hx
    by_cases hnod : (subs0.map (fun s => (s.1, s.2.1))).Nodup
    case neg => rw [if_neg hnod] at hx; cases hx
    rw [if_pos hnod] at hx
    simp only [Option.some.injEq, Prod.mk.injEq, V8.Tree.Dir.mk.injEq] at hx
    obtain ⟨rfl, rfl, rfl⟩ := hx
    obtain ⟨cl, k, hcl, hki, hm, ⟨bi, jid, hbi, hji, hu⟩, hS, hnb⟩ := h
    unfold handlers at hK
    rw [hcl] at hK
    cases hK
    obtain ⟨_, h2⟩ := out_recorded hC hcl ho
    obtain ⟨h3, h4⟩ := h2 k hki
    cases hu.symm.trans (h3 jid bi hbi hji)
    obtain ⟨bo, j, i, b1, b2, b3, b4⟩ := h4 m hm nd raw en hF hr hk
    exact .here ⟨⟨cl, k, hcl, hki, hm, ⟨bi, jid, hbi, hji, hu⟩, ⟨bo, j, i, b1, b2, b3, b4⟩, hS, hnb⟩, hk.not_bin⟩
  | @deeper ty files l r sty snm d d' hd ih =>
    intro n con v info hx
    cases n with
    | zero => rw [extractTree] at hx; cases hx
    | succ n =>
    rw [extractTree] at hx
    simp only [Option.bind_eq_some_iff] at hx
    obtain ⟨h, hK, ⟨info', os, src⟩, ho, subs0, hs, hx⟩ := hx
    by_cases hnod : (subs0.map (fun s => (s.1, s.2.1))).Nodup
    case neg => rw [if_neg hnod] at hx; cases hx
    rw [if_pos hnod] at hx
    simp only [Option.some.injEq, Prod.mk.injEq, V8.Tree.Dir.mk.injEq] at hx
    obtain ⟨rfl, rfl, hx⟩ := hx
    cases ofList_inj hx
    obtain ⟨o, ho', info2, hty, hx2⟩ := kids_from hs (sty, snm, d) (List.mem_append_right _ List.mem_cons_self)
    cases hty
    unfold handlers at hK
    rw [Option.map_eq_some_iff] at hK
    obtain ⟨cl, hcl, rfl⟩ := hK
    obtain ⟨h1, _⟩ := out_recorded hC hcl ho
    obtain ⟨k, hki, hinc, hbi, hbo⟩ := h1 (List.ne_nil_of_mem ho')
    exact .deeper hcl hki hinc hbi hbo (ih _ _ _ _ hx2)

/-- **C81, edit of a nested object between extraction and build.**  The same for a module of an object at any depth: the product is extracted, the `.bsl` file of the object is given the text `t`, the
sources are built. -/
theorem C81_extract_edit_build_nested (types : List (Text × Text)) (C : Text → Option Class) (g : V8.FormObj.Lim) (e : V8.Root.Env) (c : Cls) (ver : Text) (F : Text → Option Node)
    (ord : Text → List Entry → List Entry) (shuf : List Text → List Text) (nm : Val → Text) (n : Nat) (info : Info) (src : List (Place Node)) (l r : List (Text × Text × V8.Tree.Dir))
    (sty snm : Text) (d d' : V8.Tree.Dir) (file fu u : Text)
    (dr dh : List (List Val)) (w : Text) (m : Text × Text) (nd : Node) (raw b : Bytes) (en : EncName) (t : Text)
    (hC : ClassesOk C) (hE : e.x.E = envOf types C) (hy : e.y.E = e.x.E) (hp : e.y.p = e.x.p) (ha : e.y.auto = e.x.auto)
    (hv0 : e.x.valid [] = false) (hT : ∀ u, e.types u ≠ some "ConfigurationExtension".toList) (hsame : V8.Misc.checkVersion e.tool e.tool = .ok ())
    (hord : ∀ id l, (ord id l).Perm l) (hshuf : ∀ l, (shuf l).Perm l) (hd : V8.Root.detect e F = some (c, ver))
    (hx : V8.Root.extractProduct e (handlers C g e.x e.y ver) c ver F n = some (info, .mk src (.ofList (l ++ (sty, snm, d) :: r)))) (hok : V8.Root.ProductOk e c ver F file fu u dr dh)
    (hin : V8.Root.InnerOk types C g e c ver F nm dh)
    (hF : F (w ++ '.' :: m.2) = some nd) (hr : HasText nd raw) (hk : KeptIn raw en) (he : EditedAt (TextEdit C w m t) sty d d') (hb : Holds e.y.win en t b) :
    ∃ files files' names,
      V8.Root.buildProduct e (fun v p => handlers C g e.x { e.y with prod := p } v) ord shuf file (.mk src (.ofList (l ++ (sty, snm, d) :: r))) = some (c, files) ∧
      V8.Root.buildProduct e (fun v p => handlers C g e.x { e.y with prod := p } v) ord shuf file (.mk src (.ofList (l ++ (sty, snm, d') :: r))) = some (c, files') ∧
      OnlyText (w ++ '.' :: m.2) b files files' ∧ (c ≠ .extension → names.Perm (files.map (·.1))) ∧
      ∀ x nd, (x, nd) ∈ files ↔ (V8.Root.NestedNames C e c F dh x ∧ F x = some nd) ∨ V8.Root.Written e c F u fu dr names x nd := by
  obtain ⟨files, names, h1, h2, h3⟩ := V8.Root.C62_product types C g e c ver F ord shuf nm n info _ file fu u dr dh hC hE hy hp ha hv0 hT hsame hord hshuf hd hx hok hin
  unfold V8.Root.extractProduct at hx
  simp only [Option.bind_eq_some_iff] at hx
  obtain ⟨⟨info', os, src0⟩, hroot, subs0, hs, hx⟩ := hx
  by_cases hnod : (subs0.map (fun s => (s.1, s.2.1))).Nodup
  case neg => rw [if_neg hnod] at hx; cases hx
  rw [if_pos hnod] at hx
  simp only [Option.some.injEq, Prod.mk.injEq, V8.Tree.Dir.mk.injEq] at hx
  obtain ⟨rfl, rfl, hx⟩ := hx
  cases ofList_inj hx
  obtain ⟨o, _, info2, hty, hx2⟩ := kids_from hs (sty, snm, d) (List.mem_append_right _ List.mem_cons_self)
  cases hty
  obtain ⟨files', d1, d2⟩ := C81_nested_module C hC g e ord shuf file (nodes src0) l r _ snm d d' w m en t b hb (tree_recorded hC hF hr hk he _ _ _ _ hx2) c files h1
  exact ⟨files, files', names, h1, d1, d2, h2, h3⟩

end V8.Edit
