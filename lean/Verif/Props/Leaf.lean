import Verif.Leaf
import Verif.Props.Store
import Verif.Props.Misc
/-
C63: pictures, templates and web service references come back.
-/
namespace V8.Leaf
open V8.Brace V8.Enc V8.JsonText V8.Header V8.Object V8.Embed V8.Store
open V8.Module (EncName bomName writeText strDecode)
open V8.Product (getAt setAt getAt_setAt setAt_getAt setAt_setAt getAt_frame)

/-! ## what is asked of an object -/

/-- a picture that comes back (C52): missing, or a brace file with its data in the usual base64 -/
def PictureOk (win : Bool) (n : Option Node) : Prop := n = none ∨
  ∃ d s, n = some (.file (braceFile win d)) ∧ d ≠ [] ∧ WFFile d ∧ getP [0, 2, 0, 0] (rootVal d) = some (.str s) ∧ s ≠ [] ∧ Canonical s

/-- a text that comes back: UTF-8 with or without its mark, with the line ends of the system -/
def TextOk (win : Bool) (n : Option Node) : Prop := n = none ∨
  ∃ t, '\r' ∉ t ∧ ((n = some (.file (utf8 (osWrite win t))) ∧ t.head? ≠ some bom) ∨ n = some (.file (bom8 ++ utf8 (osWrite win t))))

/-- a binary template that comes back (C12, C52): missing, or a file that is base64 text as a whole (any file `{1,{#base64...` of the serializer is:
parsedOf_big) -/
def BinOk (n : Option Node) : Prop := n = none ∨ ∃ b, n = some (.file b) ∧ parsedOf b = .big

/-- the data of a template; `ext` is the extension from the comment, which may not be one the tool uses itself -/
def TemplateOk (win : Bool) (ext : Text) (ty : TType) (n : Option Node) : Prop := match ty with
  | .text => TextOk win n
  | .html => PageOk win n
  | .base64 => BinOk n ∧ ext ≠ "json".toList ∧ ext ≠ "c1b64".toList
  | .extension => BinOk n ∧ ext ≠ "json".toList ∧ ext ≠ "c1b64".toList
  | _ => ∀ f, n ≠ some (.dir f)

/-- the data of an object -/
def DataOk (win : Bool) (t : Leaf) (ext : Text) (root : Val) (n : Option Node) : Prop := match t with
  | .picture => PictureOk win n ∧ ext ≠ "json".toList
  | .reference => ∀ b, n ≠ some (.file b)
  | t => ∀ ty, typeAt t root = some ty → TemplateOk win ext ty n

/-- what is asked of an object: its file is in the layout of the serializer, under its identifier, and the name and the data are ones that come
back each for itself -/
structure LeafFit (x : Ext) (y : Bld) (F : Text → Option Node) (t : Leaf) (u : Text) (d : List (List Val)) (c : Cls) : Prop where
  file : F u = some (.file (braceFile y.win d))
  ne : d ≠ []
  wf : WFFile d
  place : placeAt (rootVal d) t = some c
  uuid : ∃ l, (headerOf c d)[1]? = some (.list l) ∧ l[2]? = some (.str u)
  pre : PrefixOk x.p y.parent (headerOf c d)
  data : ∀ tok, (headerOf c d)[4]? = some (.str tok) → DataOk y.win t (V8.Misc.extension x.alnum (strDecode tok)) (rootVal d) (F (dot u ['0']))

/-! ## texts -/

theorem ext_short (al : Char → Bool) (t : Text) : (V8.Misc.extension al t).length < 6 := by
  unfold V8.Misc.extension
  simp only
  split
  · decide
  · split
    · split
      · rename_i h; exact h.1
      · decide
    · decide

theorem retext_plain (win w : Bool) (t : Text) (hr : '\r' ∉ t) (hb : t.head? ≠ some bom) :
    retext w (utf8 (osWrite win t)) = some (utf8 (osWrite w t)) := by
  have hh : (osWrite win t).head? ≠ some bom := by
    cases win with
    | false => exact hb
    | true =>
      cases t with
      | nil => exact hb
      | cons a r =>
        intro h
        apply hb
        by_cases ha : a = '\n'
        · subst ha
          simp [osWrite] at h
          exact absurd h (by decide)
        · simp [osWrite, ha] at h
          simp [h]
  have h1 : bomName (utf8 (osWrite win t)) = .utf8 := by
    unfold bomName
    rw [detectByBom_utf8, if_neg hh]
  unfold retext
  rw [h1]
  simp only
  rw [utf8Text_utf8, Option.bind_some, V8.Module.universal_osWrite win t hr]
  rfl

theorem retext_marked (win w : Bool) (t : Text) (hr : '\r' ∉ t) :
    retext w (bom8 ++ utf8 (osWrite win t)) = some (bom8 ++ utf8 (osWrite w t)) := by
  have e : bom8 ++ utf8 (osWrite win t) = utf8 (bom :: osWrite win t) := by rw [utf8_cons, utf8_bom]
  have h1 : bomName (bom8 ++ utf8 (osWrite win t)) = .utf8sig := by
    unfold bomName
    rw [e, detectByBom_utf8]
    rfl
  unfold retext
  rw [h1]
  simp only
  rw [utf8Sig_bom, Option.bind_some, V8.Module.universal_osWrite win t hr]
  rfl

/-- a file in the layout of the serializer that begins as a whole-file binary is taken as one -/
theorem parsedOf_big (win : Bool) (t : Text) (h : '\r' ∉ t) : parsedOf (bom8 ++ utf8 (osWrite win ("{1,\n{#base64".toList ++ t))) = .big := by
  have hu := V8.Module.universal_osWrite win ("{1,\n{#base64".toList ++ t) (by
    intro hm
    rcases List.mem_append.mp hm with hm | hm
    · exact absurd hm (by decide)
    · exact h hm)
  unfold parsedOf
  rw [utf8Sig_bom]
  simp only [hu, C12_big_binary_reported]

theorem parsedOf_tree (win : Bool) (d : List (List Val)) (hne : d ≠ []) (hd : WFFile d) : parsedOf (braceFile win d) = .tree (rootVal d) := by
  unfold parsedOf braceFile
  rw [utf8Sig_bom]
  have := C10_round_trip win d hne hd
  unfold writeRead io at this
  simp only [this]

/-! ## the parts of the classes -/

theorem fieldIn_of {j : JT} {k : Text} {v : Option Val} (h : entry j k = v.map jsonOf) : fieldIn j k = some v := by
  unfold fieldIn
  rw [h]
  cases v with
  | none => rfl
  | some v =>
    simp only [Option.map_some]
    rw [valOf_jsonOf]
    rfl

/-- the names of the sources of a class -/
def srcNames (x : Ext) (t : Leaf) (root : Val) (info : Info) : List Text := match t with
  | .picture => [dot Leaf.picture.name (V8.Misc.extension x.alnum info.comment)]
  | .reference => [copyName info.name]
  | t => match typeAt t root with
    | some .text => [dot t.name "txt".toList]
    | some .html => [dot t.name "html".toList, dot t.name "bin".toList]
    | some .base64 => [dot t.name "c1b64".toList, dot t.name (V8.Misc.extension x.alnum info.comment)]
    | some .extension => [dot t.name "c1b64".toList, dot t.name (V8.Misc.extension x.alnum info.comment)]
    | some ty => [dot t.name (ty.copied.getD [])]
    | none => []

/-- the entries of the description before the common ones, and after them -/
def frontKeys : Leaf → List Text
  | .template => ["type".toList]
  | .commonTemplate => ["type".toList]
  | _ => []

def extraKeys (t : Leaf) (root : Val) : List Text := match t with
  | .picture => ["info".toList]
  | .reference => []
  | t => if typeAt t root = some .html then ["html".toList] else []

theorem data_shape {x : Ext} {n : Text} {F : Text → Option Node} {info : Info} {ty : TType} {p : List (Place JT) × List (Place Bytes)}
    (h : dataParts x n F info ty = some p) :
    p.1.map (·.1) = (if ty = .html then ["html".toList] else []) ∧ (∀ m v, (m, some v) ∈ p.1 → v.WF) ∧
    p.2.map (·.1) = (match ty with
      | .text => [dot n "txt".toList]
      | .html => [dot n "html".toList, dot n "bin".toList]
      | .base64 => [dot n "c1b64".toList, dot n (V8.Misc.extension x.alnum info.comment)]
      | .extension => [dot n "c1b64".toList, dot n (V8.Misc.extension x.alnum info.comment)]
      | ty => [dot n (ty.copied.getD [])]) := by
  unfold dataParts at h
  rw [Option.bind_eq_some_iff] at h
  obtain ⟨f, _, h⟩ := h
  have nowf : ∀ m v, (m, some v) ∈ ([] : List (Place JT)) → v.WF := fun _ _ hm => by cases hm
  cases ty with
  | text =>
    cases f with
    | none => cases h; exact ⟨rfl, nowf, rfl⟩
    | some b =>
      simp only [Option.map_eq_some_iff] at h
      obtain ⟨b', _, rfl⟩ := h
      exact ⟨rfl, nowf, rfl⟩
  | html =>
    simp only [Option.map_eq_some_iff] at h
    obtain ⟨q, _, rfl⟩ := h
    refine ⟨rfl, ?_, rfl⟩
    intro m v hm
    rw [List.mem_singleton, Prod.mk.injEq] at hm
    have hv := hm.2
    symm at hv
    rw [Option.map_eq_some_iff] at hv
    obtain ⟨w, _, rfl⟩ := hv
    exact jsonOf_wf w
  | base64 =>
    simp only [Option.map_eq_some_iff] at h
    obtain ⟨q, _, rfl⟩ := h
    exact ⟨rfl, nowf, rfl⟩
  | extension =>
    simp only [Option.map_eq_some_iff] at h
    obtain ⟨q, _, rfl⟩ := h
    exact ⟨rfl, nowf, rfl⟩
  | table => cases h; exact ⟨rfl, nowf, rfl⟩
  | active_doc => cases h; exact ⟨rfl, nowf, rfl⟩
  | geographic => cases h; exact ⟨rfl, nowf, rfl⟩
  | scheme => cases h; exact ⟨rfl, nowf, rfl⟩
  | design => cases h; exact ⟨rfl, nowf, rfl⟩
  | graphic_scheme => cases h; exact ⟨rfl, nowf, rfl⟩

theorem template_shape {x : Ext} {t : Leaf} {F : Text → Option Node} {info : Info} {root : Val} {p : Parts} (ht : t = .template ∨ t = .commonTemplate)
    (h : templateParts x t F info root = some p) :
    p.front.map (·.1) = frontKeys t ∧ p.extra.map (·.1) = extraKeys t root ∧ (∀ m v, (m, some v) ∈ p.front ++ p.extra → v.WF) ∧
      p.files.map (·.1) = srcNames x t root info := by
  unfold templateParts at h
  simp only [Option.bind_eq_some_iff, Option.map_eq_some_iff] at h
  obtain ⟨ty, hty, q, hq, rfl⟩ := h
  obtain ⟨h1, h2, h3⟩ := data_shape hq
  have hwf : ∀ m v, (m, some v) ∈ [("type".toList, some (JT.str ty.name))] ++ q.1 → v.WF := by
    intro m v hm
    rcases List.mem_append.mp hm with hm | hm
    · rw [List.mem_singleton, Prod.mk.injEq] at hm
      cases hm.2
      exact str_wf _
    · exact h2 m v hm
  rcases ht with rfl | rfl
  · refine ⟨rfl, ?_, hwf, ?_⟩
    · rw [h1]
      unfold extraKeys
      simp only [hty, Option.some.injEq]
    · rw [nodes_names, h3]
      unfold srcNames
      simp only [hty]
      cases ty <;> rfl
  · refine ⟨rfl, ?_, hwf, ?_⟩
    · rw [h1]
      unfold extraKeys
      simp only [hty, Option.some.injEq]
    · rw [nodes_names, h3]
      unfold srcNames
      simp only [hty]
      cases ty <;> rfl

theorem parts_shape {x : Ext} {t : Leaf} {F : Text → Option Node} {info : Info} {root : Val} {p : Parts} (h : partsOut x t F info root = some p) :
    p.front.map (·.1) = frontKeys t ∧ p.extra.map (·.1) = extraKeys t root ∧ (∀ m v, (m, some v) ∈ p.front ++ p.extra → v.WF) ∧
      p.files.map (·.1) = srcNames x t root info := by
  cases t with
  | picture =>
    unfold partsOut pictureParts at h
    simp only [Option.bind_eq_some_iff, Option.map_eq_some_iff] at h
    obtain ⟨f, _, q, _, rfl⟩ := h
    refine ⟨rfl, rfl, ?_, rfl⟩
    intro m v hm
    rw [List.nil_append, List.mem_singleton, Prod.mk.injEq] at hm
    have hv := hm.2
    symm at hv
    rw [Option.map_eq_some_iff] at hv
    obtain ⟨w, _, rfl⟩ := hv
    exact jsonOf_wf w
  | reference =>
    unfold partsOut at h
    cases h
    exact ⟨rfl, rfl, (fun _ _ hm => by cases hm), rfl⟩
  | template => exact template_shape (.inl rfl) h
  | commonTemplate => exact template_shape (.inr rfl) h

theorem ext_id (al : Char → Bool) (t : Text) : V8.Misc.extension al t ≠ "id.json".toList := by
  intro h
  have := ext_short al t
  rw [h] at this
  exact absurd this (by decide)

theorem dots_nodup (n : Text) (l : List Text) (h : l.Nodup) : (l.map (dot n)).Nodup := by
  rw [List.Nodup, List.pairwise_map]
  exact h.imp (fun hab he => hab (dot_inj he))

/-- no two files of the sources of an object share a name -/
theorem sources_nodup {x : Ext} {t : Leaf} {win : Bool} {root : Val} {info : Info} {n : Option Node}
    (hd : DataOk win t (V8.Misc.extension x.alnum info.comment) root n) :
    (srcNames x t root info ++ [idName t.name, objName t.name]).Nodup := by
  have hid := ext_id x.alnum info.comment
  have tmpl : ∀ t : Leaf, (∀ ty, typeAt t root = some ty → TemplateOk win (V8.Misc.extension x.alnum info.comment) ty n) →
      ((match typeAt t root with
    | some .text => [dot t.name "txt".toList]
    | some .html => [dot t.name "html".toList, dot t.name "bin".toList]
    | some .base64 => [dot t.name "c1b64".toList, dot t.name (V8.Misc.extension x.alnum info.comment)]
    | some .extension => [dot t.name "c1b64".toList, dot t.name (V8.Misc.extension x.alnum info.comment)]
    | some ty => [dot t.name (ty.copied.getD [])]
    | none => []) ++ [idName t.name, objName t.name]).Nodup := by
    intro t h
    have bin : BinOk n ∧ V8.Misc.extension x.alnum info.comment ≠ "json".toList ∧ V8.Misc.extension x.alnum info.comment ≠ "c1b64".toList →
        ([dot t.name "c1b64".toList, dot t.name (V8.Misc.extension x.alnum info.comment)] ++ [idName t.name, objName t.name]).Nodup := by
      rintro ⟨_, h1, h2⟩
      refine dots_nodup t.name ["c1b64".toList, V8.Misc.extension x.alnum info.comment, "id.json".toList, "json".toList] ?_
      rw [List.nodup_cons, List.nodup_cons]
      refine ⟨?_, ?_, by decide⟩
      · intro hm
        rcases List.mem_cons.mp hm with hm | hm
        · exact h2 hm.symm
        · exact absurd hm (by decide)
      · intro hm
        rcases List.mem_cons.mp hm with hm | hm
        · exact hid hm
        · rw [List.mem_singleton] at hm
          exact h1 hm
    cases hty : typeAt t root with
    | none => exact dots_nodup t.name ["id.json".toList, "json".toList] (by decide)
    | some ty =>
      have hty' := h ty hty
      cases ty with
      | text => exact dots_nodup t.name ["txt".toList, "id.json".toList, "json".toList] (by decide)
      | html => exact dots_nodup t.name ["html".toList, "bin".toList, "id.json".toList, "json".toList] (by decide)
      | base64 => exact bin hty'
      | extension => exact bin hty'
      | table => exact dots_nodup t.name ["mxl".toList, "id.json".toList, "json".toList] (by decide)
      | active_doc => exact dots_nodup t.name ["bin".toList, "id.json".toList, "json".toList] (by decide)
      | geographic => exact dots_nodup t.name ["bin".toList, "id.json".toList, "json".toList] (by decide)
      | scheme => exact dots_nodup t.name ["bin".toList, "id.json".toList, "json".toList] (by decide)
      | design => exact dots_nodup t.name ["bin".toList, "id.json".toList, "json".toList] (by decide)
      | graphic_scheme => exact dots_nodup t.name ["bin".toList, "id.json".toList, "json".toList] (by decide)
  cases t with
  | picture =>
    refine dots_nodup Leaf.picture.name [V8.Misc.extension x.alnum info.comment, "id.json".toList, "json".toList] ?_
    rw [List.nodup_cons]
    refine ⟨?_, by decide⟩
    intro hm
    rcases List.mem_cons.mp hm with hm | hm
    · exact hid hm
    · rw [List.mem_singleton] at hm
      exact hd.2 hm
  | reference =>
    show (copyName info.name :: [idName Leaf.reference.name, objName Leaf.reference.name]).Nodup
    rw [List.nodup_cons]
    refine ⟨?_, by decide⟩
    intro hm
    have hs : '/' ∈ copyName info.name := List.mem_append_right _ List.mem_cons_self
    rcases List.mem_cons.mp hm with hm | hm
    · rw [hm] at hs
      exact absurd hs (by decide)
    · rw [List.mem_singleton] at hm
      rw [hm] at hs
      exact absurd hs (by decide)
  | template => exact tmpl .template hd
  | commonTemplate => exact tmpl .commonTemplate hd

/-! ## the data come back -/

theorem textBack_of {w win : Bool} {n : Text} {f : Option Bytes} {b : Option Bytes} {S : Text → Option Node} (hok : TextOk win (f.map Node.file))
    (hb : match f with
      | none => b = none
      | some b0 => ∃ b', retext w b0 = some b' ∧ b = some b')
    (hS : S (dot n "txt".toList) = b.map Node.file) : textBack win S n = some f := by
  unfold textBack
  rw [fileIn_of hS]
  cases f with
  | none =>
    simp only at hb
    subst hb
    rfl
  | some b0 =>
    simp only at hb
    obtain ⟨b', hb', rfl⟩ := hb
    simp only
    rcases hok with h | ⟨t, hr, ⟨h, hm⟩ | h⟩
    · cases h
    · cases h
      rw [retext_plain win w t hr hm] at hb'
      cases hb'
      rw [retext_plain w win t hr hm]
      rfl
    · cases h
      rw [retext_marked win w t hr] at hb'
      cases hb'
      rw [retext_marked w win t hr]
      rfl

theorem fileAt_some {F : Text → Option Node} {n : Text} {f : Option Bytes} (h : fileAt F n = some f) : F n = f.map Node.file := by
  unfold fileAt at h
  cases hF : F n with
  | none => rw [hF] at h; cases h; rfl
  | some nd =>
    rw [hF] at h
    cases nd with
    | file b => cases h; rfl
    | dir _ => cases h

theorem html_back {win : Bool} {f : Option Bytes} {q : Html} (hok : PageOk win (f.map Node.file)) (h : htmlOut tree f = some q) :
    htmlIn (ser win) q = some f := by
  rcases hok with h0 | ⟨b, h0, hl⟩ | ⟨d, h0, hl, hne, hd, hc⟩
  · cases f with
    | none => cases h; rfl
    | some b => cases h0
  · cases f with
    | none => cases h0
    | some b' =>
      cases h0
      obtain ⟨src, h1, h2⟩ := C52_html_large tree (ser win) b hl
      rw [h] at h1
      cases h1
      exact h2
  · cases f with
    | none => cases h0
    | some b' =>
      cases h0
      rw [C52_html_partial tree (ser win) _ (rootVal d) q h hl (tree_file win d hne hd) (truthy_root d hne) hc, ser_root]

theorem bin_back {win : Bool} {f : Option Bytes} {q : Tmpl} (hok : BinOk (f.map Node.file)) (h : templateOut parsedOf f = some q) :
    templateIn (ser win) q = f := by
  rcases hok with h0 | ⟨b, h0, hb⟩
  · cases f with
    | none => cases h; rfl
    | some b => cases h0
  · cases f with
    | none => cases h0
    | some b' =>
      cases h0
      obtain ⟨src, h1, h2⟩ := C52_template_big parsedOf (ser win) b hb
      rw [h] at h1
      cases h1
      exact h2

/-- the data of any template come back -/
theorem data_back {x : Ext} {win : Bool} {n : Text} {F : Text → Option Node} {info : Info} {ty : TType} {p : List (Place JT) × List (Place Bytes)}
    {S : Text → Option Node} {j : JT} (h : dataParts x n F info ty = some p)
    (hok : TemplateOk win (V8.Misc.extension x.alnum info.comment) ty (F (dot info.uuid ['0'])))
    (hc : textAt j "comment".toList = some info.comment) (hj : ∀ q ∈ p.1, entry j q.1 = q.2) (hS : ∀ q ∈ nodes p.2, S q.1 = q.2)
    (hno : ∀ sfx, sfx ≠ "id.json".toList → sfx ≠ "json".toList → dot n sfx ∉ p.2.map (·.1) → S (dot n sfx) = none) :
    ∃ f, dataBack x win n S j ty = some f ∧ F (dot info.uuid ['0']) = f.map Node.file := by
  unfold dataParts at h
  rw [Option.bind_eq_some_iff] at h
  obtain ⟨f, hf, h⟩ := h
  have hF := fileAt_some hf
  rw [hF] at hok
  refine ⟨f, ?_, hF⟩
  have hext : extIn x j = some (V8.Misc.extension x.alnum info.comment) := by unfold extIn; rw [hc]; rfl
  have copied : ∀ sfx, p = ([], [(dot n sfx, f)]) → sfx ≠ "txt".toList → (match fileIn S (dot n sfx) with
      | some b => some (some b)
      | none => textBack win S n) = some f := by
    intro sfx hp hne
    subst hp
    have h1 : S (dot n sfx) = f.map Node.file := hS (dot n sfx, f.map Node.file) List.mem_cons_self
    rw [fileIn_of h1]
    cases f with
    | some b => rfl
    | none =>
      have h2 : S (dot n "txt".toList) = none := hno "txt".toList (by decide) (by decide) (by
        intro hm
        rw [List.map_cons, List.map_nil, List.mem_singleton] at hm
        exact hne (dot_inj hm).symm)
      simp only
      unfold textBack
      rw [fileIn_of (b := none) h2]
  have bin : (∀ q, templateOut parsedOf f = some q → p = ([], [(dot n "c1b64".toList, q.c1b64), (dot n (V8.Misc.extension x.alnum info.comment), q.data)]) →
      BinOk (f.map Node.file) →
      (extIn x j).map (fun e => templateIn (ser win) ⟨fileIn S (dot n e), fileIn S (dot n "c1b64".toList)⟩) = some f) := by
    intro q hq hp hb
    subst hp
    have h1 : S (dot n "c1b64".toList) = q.c1b64.map Node.file := hS (dot n "c1b64".toList, q.c1b64.map Node.file) List.mem_cons_self
    have h2 : S (dot n (V8.Misc.extension x.alnum info.comment)) = q.data.map Node.file :=
      hS (dot n (V8.Misc.extension x.alnum info.comment), q.data.map Node.file) (List.mem_cons_of_mem _ List.mem_cons_self)
    rw [hext, Option.map_some, fileIn_of h1, fileIn_of h2]
    exact congrArg some (bin_back hb hq)
  cases ty with
  | text =>
    unfold dataBack
    simp only
    cases f with
    | none =>
      cases h
      have h1 : S (dot n "txt".toList) = none := hS (dot n "txt".toList, none) List.mem_cons_self
      exact textBack_of (w := x.win) (b := none) hok rfl h1
    | some b =>
      simp only [Option.map_eq_some_iff] at h
      obtain ⟨b', hb', rfl⟩ := h
      have h1 : S (dot n "txt".toList) = some (.file b') := hS (dot n "txt".toList, some (.file b')) List.mem_cons_self
      exact textBack_of (w := x.win) (b := some b') hok ⟨b', hb', rfl⟩ h1
  | html =>
    simp only [Option.map_eq_some_iff] at h
    obtain ⟨q, hq, rfl⟩ := h
    have h0 : entry j "html".toList = q.field.map jsonOf := hj _ List.mem_cons_self
    have h1 : S (dot n "html".toList) = q.html.map Node.file := hS (dot n "html".toList, q.html.map Node.file) List.mem_cons_self
    have h2 : S (dot n "bin".toList) = q.bin.map Node.file := hS (dot n "bin".toList, q.bin.map Node.file) (List.mem_cons_of_mem _ List.mem_cons_self)
    unfold dataBack
    simp only
    rw [fieldIn_of h0, Option.bind_some, fileIn_of h1, fileIn_of h2]
    exact html_back hok hq
  | base64 =>
    simp only [Option.map_eq_some_iff] at h
    obtain ⟨q, hq, rfl⟩ := h
    exact bin q hq rfl hok.1
  | extension =>
    simp only [Option.map_eq_some_iff] at h
    obtain ⟨q, hq, rfl⟩ := h
    exact bin q hq rfl hok.1
  | table => cases h; exact copied "mxl".toList rfl (by decide)
  | active_doc => cases h; exact copied "bin".toList rfl (by decide)
  | geographic => cases h; exact copied "bin".toList rfl (by decide)
  | scheme => cases h; exact copied "bin".toList rfl (by decide)
  | design => cases h; exact copied "bin".toList rfl (by decide)
  | graphic_scheme => cases h; exact copied "bin".toList rfl (by decide)

theorem ofName_name (ty : TType) : TType.ofName ty.name = some ty := by cases ty <;> decide +kernel

/-- the data of any object come back -/
theorem parts_back {x : Ext} {win : Bool} {t : Leaf} {F : Text → Option Node} {info : Info} {root : Val} {p : Parts} {S : Text → Option Node} {j : JT}
    (h : partsOut x t F info root = some p) (hok : DataOk win t (V8.Misc.extension x.alnum info.comment) root (F (dot info.uuid ['0'])))
    (hc : textAt j "comment".toList = some info.comment) (hj : ∀ q ∈ p.front ++ p.extra, entry j q.1 = q.2) (hS : ∀ q ∈ p.files, S q.1 = q.2)
    (hno : ∀ sfx, sfx ≠ "id.json".toList → sfx ≠ "json".toList → dot t.name sfx ∉ p.files.map (·.1) → S (dot t.name sfx) = none) :
    partsIn x win t S j info.uuid info.name = some [(dot info.uuid ['0'], F (dot info.uuid ['0']))] := by
  have tmpl : (t = .template ∨ t = .commonTemplate) → templateParts x t F info root = some p →
      (∀ ty, typeAt t root = some ty → TemplateOk win (V8.Misc.extension x.alnum info.comment) ty (F (dot info.uuid ['0']))) →
      templateBack x win t S j info.uuid = some [(dot info.uuid ['0'], F (dot info.uuid ['0']))] := by
    intro ht h hok
    unfold templateParts at h
    simp only [Option.bind_eq_some_iff, Option.map_eq_some_iff] at h
    obtain ⟨ty, hty, q, hq, rfl⟩ := h
    obtain ⟨f, hf, hF⟩ := data_back (S := S) (j := j) (win := win) hq (hok ty hty) hc (fun a ha => hj a (List.mem_append_right _ ha)) hS
      (fun sfx h1 h2 h3 => hno sfx h1 h2 (by rw [nodes_names]; exact h3))
    have hn : entry j "type".toList = some (.str ty.name) := hj ("type".toList, some (.str ty.name)) List.mem_cons_self
    have hn2 : textAt j "type".toList = some ty.name := by
      cases j with
      | obj dd =>
        unfold textAt
        unfold entry at hn
        simp only [hn]
      | _ => cases hn
    unfold templateBack
    rw [hn2, Option.bind_some, ofName_name, Option.bind_some, hf, hF]
    rfl
  cases t with
  | picture =>
    unfold partsOut pictureParts at h
    simp only [Option.bind_eq_some_iff, Option.map_eq_some_iff] at h
    obtain ⟨f, hf, q, hq, rfl⟩ := h
    have hF := fileAt_some hf
    have h0 : entry j "info".toList = q.2.map jsonOf := hj _ List.mem_cons_self
    have h1 : S (dot Leaf.picture.name (V8.Misc.extension x.alnum info.comment)) = q.1.map Node.file :=
      hS (dot Leaf.picture.name (V8.Misc.extension x.alnum info.comment), q.1.map Node.file) List.mem_cons_self
    have hext : extIn x j = some (V8.Misc.extension x.alnum info.comment) := by unfold extIn; rw [hc]; rfl
    unfold partsIn pictureBack
    simp only
    rw [hext, Option.bind_some, fieldIn_of h0, Option.bind_some, fileIn_of h1]
    have key : pictureIn (ser win) q.1 q.2 = some f := by
      have hpic := hok.1
      rw [hF] at hpic
      rcases hpic with h2 | ⟨d, s, h2, hne, hd, hg, hs, hcan⟩
      · cases f with
        | none => cases hq; rfl
        | some b => cases h2
      · cases f with
        | none => cases h2
        | some b' =>
          cases h2
          obtain ⟨q1, q2⟩ := q
          have htree := tree_file win d hne hd
          cases q1 with
          | some b =>
            rw [C52_picture_partial tree (ser win) _ (rootVal d) b q2 hq htree (fun t' ht' => by rw [hg] at ht'; cases ht'; exact .inr hcan), ser_root]
          | none =>
            exfalso
            unfold pictureOut at hq
            simp only [htree] at hq
            cases hw : getP [0, 2] (rootVal d) with
            | none => rw [hw] at hq; cases hq
            | some w =>
              rw [hw] at hq
              simp only at hq
              have hw2 : getP [0, 0] w = some (.str s) := by
                rw [← getP_append [0, 2] [0, 0] (rootVal d) w hw]
                exact hg
              have hwalk : walk [0, 0] w = .ok (some (.str s)) := by
                cases w with
                | none => cases hw2
                | str _ => cases hw2
                | list l =>
                  cases l with
                  | nil => cases hw2
                  | cons a r =>
                    cases a with
                    | none => cases hw2
                    | str _ => cases hw2
                    | list l2 =>
                      cases l2 with
                      | nil => cases hw2
                      | cons a2 r2 =>
                        simp only [getP, List.getElem?_cons_zero, Option.some.injEq] at hw2
                        subst hw2
                        cases s with
                        | nil => exact absurd rfl hs
                        | cons c0 r0 => rfl
              rw [hwalk] at hq
              simp only [Option.map_eq_some_iff] at hq
              obtain ⟨⟨b, v'⟩, _, he⟩ := hq
              cases he
    rw [key, hF]
    rfl
  | reference =>
    unfold partsOut at h
    cases h
    have h1 : S (copyName info.name) = dirOnly (F (dot info.uuid ['0'])) := hS (copyName info.name, _) List.mem_cons_self
    unfold partsIn referenceBack
    simp only
    rw [h1]
    have hok' : ∀ b, F (dot info.uuid ['0']) ≠ some (.file b) := hok
    cases hF : F (dot info.uuid ['0']) with
    | none => rfl
    | some nd =>
      cases nd with
      | dir f => rfl
      | file b => exact absurd hF (hok' b)
  | template => exact tmpl (.inl rfl) h hok
  | commonTemplate => exact tmpl (.inr rfl) h hok

/-! ## the description -/

/-- the entries of the description, in order -/
def keysOf (t : Leaf) (root : Val) : List Text := (match t with
    | .template => frontKeys t ++ ["header".toList, "name".toList, "name2".toList, "comment".toList]
    | .commonTemplate => frontKeys t ++ ["header".toList, "name".toList, "name2".toList, "comment".toList]
    | t => frontKeys t ++ ["name".toList, "name2".toList, "comment".toList] ++ ["header".toList]) ++ extraKeys t root ++ ["obj_version".toList]

theorem keysOf_nodup (t : Leaf) (root : Val) : (keysOf t root).Nodup := by
  unfold keysOf extraKeys frontKeys
  cases t with
  | picture => exact (by decide : ["name".toList, "name2".toList, "comment".toList, "header".toList, "info".toList, "obj_version".toList].Nodup)
  | reference => exact (by decide : ["name".toList, "name2".toList, "comment".toList, "header".toList, "obj_version".toList].Nodup)
  | template =>
    simp only
    by_cases h : typeAt .template root = some .html
    · rw [if_pos h]; decide
    · rw [if_neg h]; decide
  | commonTemplate =>
    simp only
    by_cases h : typeAt .commonTemplate root = some .html
    · rw [if_pos h]; decide
    · rw [if_neg h]; decide

theorem places_keys {t : Leaf} {ver : Text} {p : Parts} {info : Info} {root header : Val} (h1 : p.front.map (·.1) = frontKeys t)
    (h2 : p.extra.map (·.1) = extraKeys t root) : (places t ver p info header).map (·.1) = keysOf t root := by
  unfold places keysOf
  cases t <;> simp only [List.map_append, List.map_cons, List.map_nil, h1, h2] <;> rfl

theorem places_common {t : Leaf} {ver : Text} {p : Parts} {info : Info} {header : Val} {q : Place JT}
    (h : q ∈ names info ∨ q = ("header".toList, some (jsonOf header)) ∨ q ∈ p.front ∨ q ∈ p.extra ∨ q = ("obj_version".toList, some (.str ver))) :
    q ∈ places t ver p info header := by
  have e : ∀ a b : List (Place JT), (q ∈ names info ∨ q = ("header".toList, some (jsonOf header)) ∨ q ∈ p.front ∨ q ∈ p.extra ∨
      q = ("obj_version".toList, some (.str ver))) → (∀ q, q ∈ names info ∨ q = ("header".toList, some (jsonOf header)) ∨ q ∈ p.front → q ∈ a) →
      q ∈ a ++ p.extra ++ [("obj_version".toList, some (.str ver))] := by
    intro a b h ha
    rcases h with h | h | h | h | h
    · exact List.mem_append_left _ (List.mem_append_left _ (ha q (.inl h)))
    · exact List.mem_append_left _ (List.mem_append_left _ (ha q (.inr (.inl h))))
    · exact List.mem_append_left _ (List.mem_append_left _ (ha q (.inr (.inr h))))
    · exact List.mem_append_left _ (List.mem_append_right _ h)
    · rw [h]
      exact List.mem_append_right _ List.mem_cons_self
  have t1 : ∀ q, q ∈ names info ∨ q = ("header".toList, some (jsonOf header)) ∨ q ∈ p.front → q ∈ p.front ++ ("header".toList, some (jsonOf header)) :: names info := by
    intro q hq
    rcases hq with hq | rfl | hq
    · exact List.mem_append_right _ (List.mem_cons_of_mem _ hq)
    · exact List.mem_append_right _ List.mem_cons_self
    · exact List.mem_append_left _ hq
  have t2 : ∀ q, q ∈ names info ∨ q = ("header".toList, some (jsonOf header)) ∨ q ∈ p.front → q ∈ p.front ++ names info ++ [("header".toList, some (jsonOf header))] := by
    intro q hq
    rcases hq with hq | rfl | hq
    · exact List.mem_append_left _ (List.mem_append_right _ hq)
    · exact List.mem_append_right _ List.mem_cons_self
    · exact List.mem_append_left _ (List.mem_append_left _ hq)
  unfold places
  cases t with
  | picture => exact e _ [] h t2
  | reference => exact e _ [] h t2
  | template => exact e _ [] h t1
  | commonTemplate => exact e _ [] h t1

theorem places_all {t : Leaf} {ver : Text} {p : Parts} {info : Info} {header : Val} {q : Place JT} (h : q ∈ places t ver p info header) :
    q ∈ names info ∨ q = ("header".toList, some (jsonOf header)) ∨ q ∈ p.front ∨ q ∈ p.extra ∨ q = ("obj_version".toList, some (.str ver)) := by
  unfold places at h
  cases t <;> simp only [List.mem_append, List.mem_cons, List.not_mem_nil, or_false] at h
  · rcases h with ((h | h) | h) | h
    · rcases h with h | h
      · exact .inr (.inr (.inl h))
      · exact .inl h
    · exact .inr (.inl h)
    · exact .inr (.inr (.inr (.inl h)))
    · exact .inr (.inr (.inr (.inr h)))
  · rcases h with ((h | h | h) | h) | h
    · exact .inr (.inr (.inl h))
    · exact .inr (.inl h)
    · exact .inl h
    · exact .inr (.inr (.inr (.inl h)))
    · exact .inr (.inr (.inr (.inr h)))
  · rcases h with ((h | h | h) | h) | h
    · exact .inr (.inr (.inl h))
    · exact .inr (.inl h)
    · exact .inl h
    · exact .inr (.inr (.inr (.inl h)))
    · exact .inr (.inr (.inr (.inr h)))
  · rcases h with ((h | h) | h) | h
    · rcases h with h | h
      · exact .inr (.inr (.inl h))
      · exact .inl h
    · exact .inr (.inl h)
    · exact .inr (.inr (.inr (.inl h)))
    · exact .inr (.inr (.inr (.inr h)))

theorem places_wf {t : Leaf} {ver : Text} {p : Parts} {info : Info} {root header : Val} (h1 : p.front.map (·.1) = frontKeys t)
    (h2 : p.extra.map (·.1) = extraKeys t root) (hw : ∀ m v, (m, some v) ∈ p.front ++ p.extra → v.WF)
    (hn : info.name2.Pairwise (fun a b => a.1 ≠ b.1)) : (JT.obj (written (places t ver p info header))).WF := by
  rw [JT.WF]
  refine ⟨written_keys _ (by rw [places_keys h1 h2]; exact keysOf_nodup t root), wfd_written _ ?_⟩
  intro m v hm
  rcases places_all hm with h | h | h | h | h
  · unfold names at h
    simp only [List.mem_cons, List.not_mem_nil, or_false, Prod.mk.injEq] at h
    rcases h with ⟨_, h⟩ | ⟨_, h⟩ | ⟨_, h⟩
    · cases h; exact str_wf _
    · cases h
      rw [JT.WF]
      exact ⟨by rw [List.pairwise_map]; exact hn, names_wf _⟩
    · cases h; exact str_wf _
  · cases h; exact jsonOf_wf _
  · exact hw m v (List.mem_append_left _ h)
  · exact hw m v (List.mem_append_right _ h)
  · cases h; exact str_wf _

theorem decode_comment_is {valid : Text → Bool} {p : Text} {sep : Bool} {h h' : List Val} {info : Info}
    (hd : decodeHeader valid p sep h = .ok (info, h')) : ∃ tok, h[4]? = some (.str tok) ∧ info.comment = strDecode tok := by
  rw [decodeHeader] at hd
  cases hl : (listAt h 1).bind (fun l => strAt l 2) with
  | none => rw [hl] at hd; cases hd
  | some u =>
    rw [hl] at hd
    simp only at hd
    by_cases hv : valid u = false
    · rw [if_pos hv] at hd; cases hd
    · rw [if_neg hv] at hd
      cases h2 : strAt h 2 with
      | none => simp [h2] at hd
      | some tok =>
        cases h3 : listAt h 3 with
        | none => simp [h2, h3] at hd
        | some names =>
          cases h4 : strAt h 4 with
          | none => simp [h2, h3, h4] at hd
          | some com =>
            refine ⟨com, strAt_some.mp h4, ?_⟩
            simp only [h2, h3, h4] at hd
            cases h5 : (strAt names 0).bind V8.Dec.parseInt with
            | none => rw [h5] at hd; cases hd
            | some n =>
              simp only [h5] at hd
              cases h6 : readNames names n.toNat 0 [] with
              | none => rw [h6] at hd; cases hd
              | some dd =>
                simp only [h6] at hd
                cases sep with
                | false =>
                  simp only [Bool.false_eq_true, if_false, Except.ok.injEq, Prod.mk.injEq] at hd
                  rw [← hd.1]
                | true =>
                  simp only [if_true] at hd
                  split at hd
                  · simp only [Except.ok.injEq, Prod.mk.injEq] at hd
                    rw [← hd.1]
                  · cases hd

/-! ## the object -/

theorem placeAt_clsAt {ver : Text} {root : Val} {t : Leaf} {c : Cls × Text} (h : clsAt ver root t = some c) : placeAt root t = some c.1 := by
  unfold placeAt
  unfold clsAt at h ⊢
  cases t with
  | picture => cases h; rfl
  | reference => cases h; rfl
  | template =>
    simp only [Option.bind_eq_some_iff] at h ⊢
    obtain ⟨v, hv, h⟩ := h
    rw [hv, Option.bind_some]
    by_cases he : v = ['2']
    · rw [if_pos he] at h ⊢; cases h; rfl
    · rw [if_neg he] at h; cases h
  | commonTemplate =>
    simp only [Option.bind_eq_some_iff] at h ⊢
    obtain ⟨v, hv, h⟩ := h
    rw [hv, Option.bind_some]
    by_cases he : v = ['4']
    · rw [if_pos he] at h ⊢; cases h; rfl
    · rw [if_neg he] at h; cases h

theorem placeAt_plain {root : Val} {t : Leaf} {c : Cls} (h : placeAt root t = some c) : ∃ n, c = plain [n] ∧ n ≠ 0 := by
  unfold placeAt clsAt at h
  cases t with
  | picture => cases h; exact ⟨1, rfl, by decide⟩
  | reference => cases h; exact ⟨2, rfl, by decide⟩
  | template =>
    simp only [Option.map_eq_some_iff, Option.bind_eq_some_iff] at h
    obtain ⟨a, ⟨v, _, h⟩, rfl⟩ := h
    by_cases he : v = ['2']
    · rw [if_pos he] at h; cases h; exact ⟨2, rfl, by decide⟩
    · rw [if_neg he] at h; cases h
  | commonTemplate =>
    simp only [Option.map_eq_some_iff, Option.bind_eq_some_iff] at h
    obtain ⟨a, ⟨v, _, h⟩, rfl⟩ := h
    by_cases he : v = ['4']
    · rw [if_pos he] at h; cases h; exact ⟨1, rfl, by decide⟩
    · rw [if_neg he] at h; cases h

/-- the description records the version under which the class is found again -/
theorem placeAt_kept {root r w : Val} {t : Leaf} {c : Cls} (hc : placeAt root t = some c) (hs : setAt root c.path w = some r) : placeAt r t = some c := by
  obtain ⟨n, rfl, hn⟩ := placeAt_plain hc
  have hf : getAt r [0, 1, 0] = getAt root [0, 1, 0] := by
    refine getAt_frame _ _ _ _ _ hs ?_ ?_
    · intro h
      have : [0, 1, n] = [0, 1, 0] := h.eq_of_length rfl
      simp only [List.cons.injEq, and_true, true_and] at this
      exact hn this
    · intro h
      have : [0, 1, 0] = [0, 1, n] := h.eq_of_length rfl
      simp only [List.cons.injEq, and_true, true_and] at this
      exact hn this.symm
  have hv : versionAt r = versionAt root := by unfold versionAt; rw [hf]
  rw [← hc]
  unfold placeAt clsAt
  rw [hv]

theorem leafOut_some {x : Ext} {ver : Text} {t : Leaf} {F : Text → Option Node} {u : Text} {info : Info} {src : List (Place Node)}
    (h : leafOut x ver t F u = some (info, src)) : ∃ b d c hd h' r p, F u = some (.file b) ∧ braceRead b = some d ∧ clsAt ver (rootVal d) t = some c ∧
      getAt (rootVal d) c.1.path = some (.list hd) ∧ decodeHeader x.valid x.p true hd = .ok (info, h') ∧
      setAt (rootVal d) c.1.path (.list h') = some r ∧ partsOut x t F info (rootVal d) = some p ∧
      src = p.files ++ nodes [(idName t.name, some (fileOf x.win (idJson info []))),
            (objName t.name, some (fileOf x.win (.obj (written (places t c.2 p info r)))))] := by
  unfold leafOut at h
  cases hF : F u with
  | none => rw [hF] at h; cases h
  | some nd =>
    rw [hF] at h
    cases nd with
    | dir f => cases h
    | file b =>
      simp only [Option.bind_eq_some_iff] at h
      obtain ⟨d, hb, c, hc, h⟩ := h
      cases hg : getAt (rootVal d) c.1.path with
      | none => rw [hg] at h; cases h
      | some v =>
        rw [hg] at h
        cases v with
        | none => cases h
        | str _ => cases h
        | list hd =>
          simp only at h
          cases hdec : decodeHeader x.valid x.p true hd with
          | error e => rw [hdec] at h; cases h
          | ok q =>
            obtain ⟨i, h'⟩ := q
            rw [hdec] at h
            simp only [Option.bind_eq_some_iff, Option.map_eq_some_iff] at h
            obtain ⟨r, hr, p, hp, he⟩ := h
            cases he
            exact ⟨b, d, c, hd, h', r, p, rfl, hb, hc, hg, hdec, hr, hp, rfl⟩

/-- a picture, a template or a web service reference comes back -/
theorem leaf_back (x : Ext) (y : Bld) (ver : Text) (t : Leaf) (F : Text → Option Node) (u : Text) (d : List (List Val)) (c : Cls) (info : Info)
    (src : List (Place Node)) (hf : LeafFit x y F t u d c) (hp : y.p = x.p) (hx : leafOut x ver t F u = some (info, src)) :
    info.uuid = u ∧ x.valid u = true ∧ leafHas t (folder src) = true ∧
    leafBack x y t (folder src) = some (some ⟨u, info.name, .str u⟩, written ((leafNames u).map (fun n => (n, F n)))) := by
  obtain ⟨b, d', cv, hd, h', r, p, hF, hb, hc, hg, hdec, hs, hpo, rfl⟩ := leafOut_some hx
  rw [hf.file] at hF
  cases hF
  rw [C59_brace_file_round_trip y.win d hf.ne hf.wf] at hb
  cases hb
  have hpl := placeAt_clsAt hc
  rw [hf.place] at hpl
  obtain ⟨c', cver⟩ := cv
  have hcc : c = c' := Option.some.inj hpl
  subst hcc
  simp only at hg hs
  have hhd : headerOf c d = hd := by unfold headerOf; rw [hg]
  obtain ⟨l, tok, h1, h2, hv, _⟩ := decode_ok hdec
  have hu : info.uuid = u := by
    obtain ⟨l', g1, g2⟩ := hf.uuid
    rw [hhd, h1] at g1
    cases g1
    rw [h2] at g2
    exact Val.str.inj (Option.some.inj g2)
  obtain ⟨ctok, h4, hcom⟩ := decode_comment_is hdec
  have hdata := hf.data ctok (by rw [hhd]; exact h4)
  rw [← hcom] at hdata
  obtain ⟨s1, s2, s3, s4⟩ := parts_shape hpo
  have hnames : ((p.files ++ nodes [(idName t.name, some (fileOf x.win (idJson info []))),
      (objName t.name, some (fileOf x.win (.obj (written (places t cver p info r)))))]).map (·.1)) = srcNames x t (rootVal d) info ++ [idName t.name, objName t.name] := by
    rw [List.map_append, s4, nodes_names]
    rfl
  have hnd := sources_nodup (x := x) (t := t) (root := rootVal d) (info := info) hdata
  rw [← hnames] at hnd
  have hid := folder_place _ (idName t.name) (some (.file (fileOf x.win (idJson info [])))) hnd (List.mem_append_right _ List.mem_cons_self)
  have hob := folder_place _ (objName t.name) (some (.file (fileOf x.win (.obj (written (places t cver p info r)))))) hnd
    (List.mem_append_right _ (List.mem_cons_of_mem _ List.mem_cons_self))
  have hid' := fileIn_of (b := some (fileOf x.win (idJson info []))) hid
  have hob' := fileIn_of (b := some (fileOf x.win (.obj (written (places t cver p info r))))) hob
  refine ⟨hu, hu ▸ hv, ?_, ?_⟩
  · unfold leafHas
    rw [hid', hob']
    rfl
  have hkeys := places_keys (ver := cver) (info := info) (header := r) s1 s2
  have hwf := places_wf (ver := cver) (header := r) s1 s2 s3 (decode_names hdec)
  have hkn : ((places t cver p info r).map (·.1)).Nodup := by rw [hkeys]; exact keysOf_nodup t (rootVal d)
  have hent : ∀ q ∈ places t cver p info r, entry (.obj (written (places t cver p info r))) q.1 = q.2 := by
    intro q hq
    exact dget_place _ q.1 q.2 hkn hq
  have hread := C58_round_trip x.win _ hwf
  have htxt : ∀ k s, (k, some (JT.str s)) ∈ places t cver p info r → textAt (.obj (written (places t cver p info r))) k = some s := by
    intro k s hq
    have := hent _ hq
    unfold entry at this
    unfold textAt
    simp only at this ⊢
    rw [this]
  have hname := htxt "name".toList info.name (places_common (.inl List.mem_cons_self))
  have hcomt := htxt "comment".toList info.comment (places_common (.inl (List.mem_cons_of_mem _ (List.mem_cons_of_mem _ List.mem_cons_self))))
  have htree : treeAt (.obj (written (places t cver p info r))) "header".toList = some r := by
    have := hent _ (places_common (.inr (.inl rfl)))
    unfold entry at this
    unfold treeAt
    simp only at this ⊢
    rw [this, Option.bind_some, valOf_jsonOf]
  have hplace := placeAt_kept hf.place hs
  obtain ⟨n, hcn, _⟩ := placeAt_plain hf.place
  have henc : encodeHeader y.p y.parent ⟨info.uuid, info.name, [], []⟩ h' = some hd := by
    obtain ⟨name, hn, hpre⟩ := hf.pre
    rw [hhd] at hn hpre
    rw [hp, ← (C33_rebuilt_iff_partial x.valid x.p y.parent name hd h' info hdec hn).mpr hpre]
    rfl
  have e2 : setAt r c.path (.list hd) = some (rootVal d) := by
    rw [setAt_setAt _ _ _ _ _ hs, setAt_getAt _ _ _ hg]
  have hval : buildVal y c [] ⟨fileOf x.win (idJson info []), fileOf x.win (.obj (written (places t cver p info r)))⟩ =
      some (info.uuid, info.name, rootVal d) := by
    unfold buildVal
    rw [C58_round_trip _ _ (idJson_wf info [] List.nodup_nil List.not_mem_nil), hread]
    simp only [Option.bind_some, textAt_id, hname, htree]
    have i1 : showIds c y.ver (idJson info []) r = some r := by subst hcn; rfl
    have i2 : putIncludes y c [] r = some r := by subst hcn; rfl
    have i3 : stampIn y c (rootVal d) = some (rootVal d) := by subst hcn; rfl
    rw [i1]
    simp only [Option.bind_some, i2, getAt_setAt _ _ _ _ hs, henc, e2, i3, Option.map_some]
  have hback := parts_back (S := folder (p.files ++ nodes [(idName t.name, some (fileOf x.win (idJson info []))),
      (objName t.name, some (fileOf x.win (.obj (written (places t cver p info r)))))])) (j := .obj (written (places t cver p info r))) (win := y.win)
    hpo (by rw [hu]; exact hdata) hcomt
    (fun q hq => hent q (places_common (by
      rcases List.mem_append.mp hq with hq | hq
      · exact .inr (.inr (.inl hq))
      · exact .inr (.inr (.inr (.inl hq))))))
    (fun q hq => folder_place _ q.1 q.2 hnd (List.mem_append_left _ hq))
    (fun sfx a1 a2 a3 => folder_none _ _ (by
      rw [List.map_append, nodes_names]
      intro hm
      rcases List.mem_append.mp hm with hm | hm
      · exact a3 hm
      · simp only [List.map_cons, List.map_nil, List.mem_cons, List.not_mem_nil, or_false] at hm
        rcases hm with hm | hm
        · exact a1 (dot_inj hm)
        · exact a2 (dot_inj hm)))
  unfold leafBack
  rw [hid', hob']
  simp only [hread, Option.bind_some, htree, hplace, hval, rootOf_rootVal, hback, Option.map_some]
  rw [hu]
  unfold leafNames
  simp only [List.cons_append, List.nil_append, List.map_cons, List.map_nil, hf.file]

end V8.Leaf
