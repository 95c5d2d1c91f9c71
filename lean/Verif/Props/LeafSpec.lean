import Verif.Props.Leaf
/-
C63: pictures, templates and web service references, stated by what is in the container and in the sources.
-/
namespace V8.Leaf
open V8.Brace V8.Enc V8.JsonText V8.Header V8.Object V8.Embed V8.Store
open V8.Module (EncName bomName writeText strDecode)
open V8.Product (getAt setAt getAt_setAt setAt_getAt setAt_setAt getAt_frame)

/-- **C63, the object.**  A picture, a template or a web service reference that is extracted and built again has the two names `uuid` and `uuid.0` in the
container as before, and nothing else. -/
theorem C63_object (x : Ext) (y : Bld) (ver : Text) (t : Leaf) (F : Text → Option Node) (u : Text) (d : List (List Val)) (c : Cls) (info : Info)
    (src : List (Place Node)) (hf : LeafFit x y F t u d c) (hp : y.p = x.p) (hx : leafOut x ver t F u = some (info, src)) :
    ∃ files, leafBack x y t (folder src) = some (some ⟨u, info.name, .str u⟩, files) ∧
      ∀ n nd, (n, nd) ∈ files ↔ (n = u ∨ n = u ++ ".0".toList) ∧ F n = some nd := by
  obtain ⟨_, _, _, h⟩ := leaf_back x y ver t F u d c info src hf hp hx
  refine ⟨_, h, ?_⟩
  intro n nd
  unfold leafNames written
  simp only [List.map_cons, List.map_nil, List.mem_filterMap, List.mem_cons, List.not_mem_nil, or_false, Option.map_eq_some_iff, Prod.mk.injEq]
  have e : dot u ['0'] = u ++ ".0".toList := rfl
  constructor
  · rintro ⟨q, hq, v, hv, rfl, rfl⟩
    rcases hq with rfl | rfl
    · exact ⟨.inr e, hv⟩
    · exact ⟨.inl rfl, hv⟩
  · rintro ⟨h1 | h1, h2⟩
    · exact ⟨(u, F u), .inr rfl, nd, h1 ▸ h2, h1.symm, rfl⟩
    · exact ⟨(dot u ['0'], F (dot u ['0'])), .inl rfl, nd, by rw [e, ← h1]; exact h2, by rw [h1]; exact e, rfl⟩

/-- the extension from the comment is none the tool uses itself -/
def ExtFine (x : Ext) (info : Info) : Prop :=
  V8.Misc.extension x.alnum info.comment ≠ "json".toList ∧ V8.Misc.extension x.alnum info.comment ≠ "c1b64".toList

theorem none_ok (x : Ext) (t : Leaf) (root : Val) (info : Info) (h : ExtFine x info) :
    DataOk x.win t (V8.Misc.extension x.alnum info.comment) root none := by
  have hm : ∀ ty, TemplateOk x.win (V8.Misc.extension x.alnum info.comment) ty none := by
    intro ty
    cases ty
    case text => exact .inl rfl
    case html => exact .inl rfl
    case base64 => exact ⟨.inl rfl, h⟩
    case extension => exact ⟨.inl rfl, h⟩
    all_goals exact fun f hf => by cases hf
  cases t with
  | picture => exact ⟨.inl rfl, h.1⟩
  | reference => exact fun b hb => by cases hb
  | template => exact fun ty _ => hm ty
  | commonTemplate => exact fun ty _ => hm ty

/-- everything that is written is in the folder of the sources -/
theorem leaf_files {x : Ext} {ver : Text} {t : Leaf} {F : Text → Option Node} {u : Text} {info : Info} {src : List (Place Node)}
    (he : ExtFine x info) (hx : leafOut x ver t F u = some (info, src)) :
    ∀ q ∈ src, folder src q.1 = q.2 := by
  obtain ⟨b, d, cv, hd, h', r, p, hF, hb, hc, hg, hdec, hs, hpo, rfl⟩ := leafOut_some hx
  obtain ⟨_, _, _, s4⟩ := parts_shape hpo
  have hnd := sources_nodup (x := x) (t := t) (root := rootVal d) (info := info) (none_ok x t (rootVal d) info he)
  have hnames : ((p.files ++ nodes [(idName t.name, some (fileOf x.win (idJson info []))),
      (objName t.name, some (fileOf x.win (.obj (written (places t cv.2 p info r)))))]).map (·.1)) = srcNames x t (rootVal d) info ++ [idName t.name, objName t.name] := by
    rw [List.map_append, s4, nodes_names]
    rfl
  rw [← hnames] at hnd
  intro q hq
  exact folder_place _ q.1 q.2 hnd hq

/-- the tree of the object -/
def TreeOf (F : Text → Option Node) (u : Text) (root : Val) : Prop := ∃ b d, F u = some (.file b) ∧ braceRead b = some d ∧ root = rootVal d

theorem tree_unique {F : Text → Option Node} {u : Text} {root : Val} {b : Bytes} {d : List (List Val)} (h : TreeOf F u root)
    (hF : F u = some (.file b)) (hb : braceRead b = some d) : root = rootVal d := by
  obtain ⟨b', d', h1, h2, rfl⟩ := h
  rw [hF] at h1
  cases h1
  rw [hb] at h2
  cases h2
  rfl

/-! ## where the header is -/

theorem getAt_list {l : List Val} {i : Nat} {w : Val} {p : List Nat} (h : l[i]? = some w) : getAt (.list l) (i :: p) = getAt w p := by
  rw [getAt]
  simp only [h]

theorem class_path {ver : Text} {root : Val} {t : Leaf} {cv : Cls × Text} (hc : clsAt ver root t = some cv) :
    cv.1.path = [0, 1, if t = .picture ∨ t = .commonTemplate then 1 else 2] := by
  unfold clsAt at hc
  cases t with
  | picture => cases hc; rfl
  | reference => cases hc; rfl
  | template =>
    simp only [Option.bind_eq_some_iff] at hc
    obtain ⟨v, _, hc⟩ := hc
    by_cases hv : v = ['2']
    · rw [if_pos hv] at hc; cases hc; rfl
    · rw [if_neg hv] at hc; cases hc
  | commonTemplate =>
    simp only [Option.bind_eq_some_iff] at hc
    obtain ⟨v, _, hc⟩ := hc
    by_cases hv : v = ['4']
    · rw [if_pos hv] at hc; cases hc; rfl
    · rw [if_neg hv] at hc; cases hc

/-- **C63, identifier, name and comment.**  The header of a picture and of a common template is at [0][1][1] of the stored tree, that of a template and of a
reference at [0][1][2]: the identifier is its [1][2], the name its [2] without the prefix of the options, the comment its [4]. -/
theorem C63_header (x : Ext) (ver : Text) (t : Leaf) (F : Text → Option Node) (u : Text) (info : Info) (src : List (Place Node)) (root : Val)
    (hr : TreeOf F u root) (hx : leafOut x ver t F u = some (info, src)) :
    ∃ n, (n = if t = .picture ∨ t = .commonTemplate then 1 else 2) ∧ getAt root [0, 1, n, 1, 2] = some (.str info.uuid) ∧
      (∃ tok, getAt root [0, 1, n, 2] = some (.str tok) ∧
        (x.p ++ info.name = strDecode tok ∨ (¬ x.p <+: strDecode tok ∧ info.name = strDecode tok))) ∧
      ∃ tok, getAt root [0, 1, n, 4] = some (.str tok) ∧ info.comment = strDecode tok := by
  obtain ⟨b, d, cv, hd, h', r, p, hF, hb, hc, hg, hdec, hs, hpo, rfl⟩ := leafOut_some hx
  have hroot := tree_unique hr hF hb
  subst hroot
  have hpath := class_path hc
  refine ⟨if t = .picture ∨ t = .commonTemplate then 1 else 2, rfl, ?_, ?_, ?_⟩
  all_goals (revert hpath; generalize (if t = .picture ∨ t = .commonTemplate then 1 else 2) = n; intro hpath; rw [hpath] at hg)
  · obtain ⟨l, tok, h1, h2, _⟩ := decode_ok hdec
    rw [show [0, 1, n, 1, 2] = [0, 1, n] ++ [1, 2] from rfl, V8.Product.getAt_append, hg, Option.bind_some, getAt_list h1, getAt_list h2]
    rfl
  · obtain ⟨l, tok, _, _, _, h3, h4, _⟩ := decode_ok hdec
    refine ⟨tok, ?_, ?_⟩
    · rw [show [0, 1, n, 2] = [0, 1, n] ++ [2] from rfl, V8.Product.getAt_append, hg, Option.bind_some, getAt_list h3]
      rfl
    · rw [h4]
      unfold stripped
      by_cases hp : x.p ≠ [] ∧ x.p.isPrefixOf (strDecode tok) = true
      · rw [if_pos hp]
        obtain ⟨s, hs⟩ := List.isPrefixOf_iff_prefix.mp hp.2
        left
        rw [← hs, List.drop_left]
      · rw [if_neg hp]
        by_cases h0 : x.p = []
        · left; rw [h0]; rfl
        · right
          refine ⟨fun h => hp ⟨h0, List.isPrefixOf_iff_prefix.mpr h⟩, rfl⟩
  · obtain ⟨tok, h1, h2⟩ := decode_comment_is hdec
    refine ⟨tok, ?_, h2⟩
    rw [show [0, 1, n, 4] = [0, 1, n] ++ [4] from rfl, V8.Product.getAt_append, hg, Option.bind_some, getAt_list h1]
    rfl

/-- **C63, template of another version.**  A template is extracted only if [0][1][0] of its tree is 2, a common template only if it is 4. -/
theorem C63_other_version (x : Ext) (ver : Text) (F : Text → Option Node) (u : Text) (root : Val) (hr : TreeOf F u root) :
    (getAt root [0, 1, 0] ≠ some (.str ['2']) → leafOut x ver .template F u = none) ∧
    (getAt root [0, 1, 0] ≠ some (.str ['4']) → leafOut x ver .commonTemplate F u = none) := by
  constructor
  · intro h
    cases hx : leafOut x ver .template F u with
    | none => rfl
    | some q =>
      obtain ⟨b, d, cv, hd, h', r, p, hF, hb, hc, _⟩ := leafOut_some (info := q.1) (src := q.2) hx
      rw [tree_unique hr hF hb] at h
      unfold clsAt at hc
      simp only [Option.bind_eq_some_iff] at hc
      obtain ⟨v, hv, hc⟩ := hc
      by_cases he : v = ['2']
      · subst he
        unfold versionAt at hv
        split at hv
        · rename_i s hs
          cases hv
          exact absurd hs h
        · cases hv
      · rw [if_neg he] at hc; cases hc
  · intro h
    cases hx : leafOut x ver .commonTemplate F u with
    | none => rfl
    | some q =>
      obtain ⟨b, d, cv, hd, h', r, p, hF, hb, hc, _⟩ := leafOut_some (info := q.1) (src := q.2) hx
      rw [tree_unique hr hF hb] at h
      unfold clsAt at hc
      simp only [Option.bind_eq_some_iff] at hc
      obtain ⟨v, hv, hc⟩ := hc
      by_cases he : v = ['4']
      · subst he
        unfold versionAt at hv
        split at hv
        · rename_i s hs
          cases hv
          exact absurd hs h
        · cases hv
      · rw [if_neg he] at hc; cases hc

/-! ## what is in the sources -/

theorem getP_eq : ∀ (p : List Nat) (v : Val), getP p v = getAt v p
  | [], v => by cases v <;> rfl
  | i :: p, .none => rfl
  | i :: p, .str _ => rfl
  | i :: p, .list l => by
    rw [getP, getAt]
    cases l[i]? with
    | none => rfl
    | some w => exact getP_eq p w

theorem walk_str {s : Text} (hs : s ≠ []) : ∀ (p : List Nat) (v : Val), getAt v p = some (.str s) → walk p v = .ok (some (.str s))
  | [], v, h => by
    have hv : v = .str s := by
      cases v <;> exact Option.some.inj h
    subst hv
    rw [walk]
    exact if_pos (decide_eq_true hs)
  | i :: p, .none, h => by cases h
  | i :: p, .str _, h => by cases h
  | i :: p, .list l, h => by
    rw [getAt] at h
    cases hl : l[i]? with
    | none => rw [hl] at h; cases h
    | some w =>
      rw [hl] at h
      rw [walk]
      have ht : truthy (.list l) = true := by
        refine decide_eq_true ?_
        intro hn
        subst hn
        cases hl
      rw [if_pos ht]
      simp only [hl]
      exact walk_str hs p w h

theorem token_data {s : Text} {img : Bytes} (hs : s = "##base64:".toList ++ V8.B64.encode img ∨ s = "#base64:".toList ++ V8.B64.encode img ∨ s = "#data:".toList ++ V8.B64.encode img) :
    s ≠ [] ∧ ∃ r, extractTok s = some (img, r) := by
  rcases hs with rfl | rfl | rfl
  · exact ⟨(fun h => by cases h), _, extract_pre2 img⟩
  · exact ⟨(fun h => by cases h), _, extract_pre1 img⟩
  · exact ⟨(fun h => by cases h), _, extract_preD img⟩

theorem fileAt_file {F : Text → Option Node} {n : Text} {b : Bytes} (h : F n = some (.file b)) : fileAt F n = some (some b) := by
  unfold fileAt
  rw [h]

/-- **C63, the image of a picture.**  The image that is stored as base64 text, whatever its mark, lies in the sources as a file of its own; its extension
is the one in the comment. -/
theorem C63_picture_source (x : Ext) (ver : Text) (F : Text → Option Node) (u : Text) (info : Info) (src : List (Place Node)) (b img : Bytes) (d : List (List Val))
    (s : Text) (he : ExtFine x info) (hF : F (dot info.uuid ['0']) = some (.file b)) (hb : braceRead b = some d)
    (hs : getAt (rootVal d) [0, 2, 0, 0] = some (.str s))
    (hi : s = "##base64:".toList ++ V8.B64.encode img ∨ s = "#base64:".toList ++ V8.B64.encode img ∨ s = "#data:".toList ++ V8.B64.encode img)
    (hx : leafOut x ver .picture F u = some (info, src)) :
    folder src (dot "CommonPicture".toList (V8.Misc.extension x.alnum info.comment)) = some (.file img) := by
  have hfiles := leaf_files he hx
  obtain ⟨b', d', cv, hd, h', r, p, hF', hb', hc, hg, hdec, hset, hpo, rfl⟩ := leafOut_some hx
  unfold partsOut pictureParts at hpo
  simp only [fileAt_file hF, Option.bind_some, Option.map_eq_some_iff] at hpo
  obtain ⟨q, hq, rfl⟩ := hpo
  obtain ⟨hne, rest, hext⟩ := token_data hi
  have hq1 : q.1 = some img := by
    unfold pictureOut tree at hq
    simp only [hb, Option.map_some] at hq
    have h2 : ∃ w, getP [0, 2] (rootVal d) = some w ∧ getAt w [0, 0] = some (.str s) := by
      rw [show [0, 2, 0, 0] = [0, 2] ++ [0, 0] from rfl, V8.Product.getAt_append, Option.bind_eq_some_iff] at hs
      obtain ⟨w, hw, hw2⟩ := hs
      exact ⟨w, by rw [getP_eq]; exact hw, hw2⟩
    obtain ⟨w, hw, hw2⟩ := h2
    simp only [hw, walk_str hne [0, 0] w hw2] at hq
    unfold takeOut at hq
    simp only [hext, Option.map_some, Option.some.injEq] at hq
    rw [← hq]
  have := hfiles (dot Leaf.picture.name (V8.Misc.extension x.alnum info.comment), q.1.map Node.file)
    (List.mem_append_left _ List.mem_cons_self)
  exact this.trans (by rw [hq1]; rfl)

/-- the place of the type of a template -/
def typePath (t : Leaf) : List Nat := if t = .commonTemplate then [0, 1, 2] else [0, 1, 1]

theorem typeAt_of {t : Leaf} {root : Val} {ty : TType} (h : getAt root (typePath t) = some (.str ty.code)) : typeAt t root = some ty := by
  have hc : TType.ofCode ty.code = some ty := by cases ty <;> decide
  unfold typeAt
  unfold typePath at h
  cases t with
  | commonTemplate => rw [if_pos rfl] at h; simp only [h, hc]
  | picture => rw [if_neg (by decide)] at h; simp only [h, hc]
  | template => rw [if_neg (by decide)] at h; simp only [h, hc]
  | reference => rw [if_neg (by decide)] at h; simp only [h, hc]

/-- the parts of a template, by its type -/
theorem template_parts {x : Ext} {ver : Text} {t : Leaf} {F : Text → Option Node} {u : Text} {info : Info} {src : List (Place Node)} {root : Val} {ty : TType}
    (ht : t = .template ∨ t = .commonTemplate) (hr : TreeOf F u root) (hty : getAt root (typePath t) = some (.str ty.code))
    (hx : leafOut x ver t F u = some (info, src)) :
    ∃ p, dataParts x t.name F info ty = some p ∧ (∀ q ∈ nodes p.2, q ∈ src) ∧
      ∃ ov j, (ov = if t = .template then ['2'] else ['4']) ∧ (objName t.name, some (Node.file (fileOf x.win j))) ∈ src ∧ j.WF ∧
        textAt j "type".toList = some ty.name ∧ textAt j "obj_version".toList = some ov := by
  obtain ⟨b', d', cv, hd, h', r, p, hF', hb', hc, hg, hdec, hset, hpo, rfl⟩ := leafOut_some hx
  have hroot := tree_unique hr hF' hb'
  subst hroot
  obtain ⟨s1, s2, s3, s4⟩ := parts_shape hpo
  have hpo' : templateParts x t F info (rootVal d') = some p := by
    rcases ht with rfl | rfl <;> exact hpo
  unfold templateParts at hpo'
  rw [typeAt_of hty] at hpo'
  simp only [Option.bind_some, Option.map_eq_some_iff] at hpo'
  obtain ⟨q, hq, rfl⟩ := hpo'
  refine ⟨q, hq, fun a ha => List.mem_append_left _ ha, if t = .template then ['2'] else ['4'],
    .obj (written (places t cv.2 ⟨[("type".toList, some (.str ty.name))], q.1, nodes q.2⟩ info r)), rfl,
    List.mem_append_right _ (List.mem_cons_of_mem _ List.mem_cons_self), places_wf s1 s2 s3 (decode_names hdec), ?_, ?_⟩
  · have hkn : ((places t cv.2 ⟨[("type".toList, some (JT.str ty.name))], q.1, nodes q.2⟩ info r).map (·.1)).Nodup := by
      rw [places_keys s1 s2]; exact keysOf_nodup t (rootVal d')
    have := dget_place _ "type".toList (some (JT.str ty.name)) hkn (places_common (.inr (.inr (.inl List.mem_cons_self))))
    unfold textAt
    simp only at this ⊢
    rw [this]
  · have hkn : ((places t cv.2 ⟨[("type".toList, some (JT.str ty.name))], q.1, nodes q.2⟩ info r).map (·.1)).Nodup := by
      rw [places_keys s1 s2]; exact keysOf_nodup t (rootVal d')
    have := dget_place _ "obj_version".toList (some (JT.str cv.2)) hkn (places_common (.inr (.inr (.inr (.inr rfl)))))
    unfold textAt
    simp only at this ⊢
    rw [this]
    simp only [Option.some.injEq]
    unfold clsAt at hc
    rcases ht with rfl | rfl
    · simp only [Option.bind_eq_some_iff] at hc
      obtain ⟨v, _, hc⟩ := hc
      by_cases hv : v = ['2']
      · rw [if_pos hv] at hc; cases hc; exact hv
      · rw [if_neg hv] at hc; cases hc
    · simp only [Option.bind_eq_some_iff] at hc
      obtain ⟨v, _, hc⟩ := hc
      by_cases hv : v = ['4']
      · rw [if_pos hv] at hc; cases hc; exact hv
      · rw [if_neg hv] at hc; cases hc

/-- a template of either class -/
def IsTemplate (t : Leaf) : Prop := t = .template ∨ t = .commonTemplate

/-- **C63, the type.**  The description of a template says its type by name and the version of the class. -/
theorem C63_type_recorded (x : Ext) (ver : Text) (t : Leaf) (F : Text → Option Node) (u : Text) (info : Info) (src : List (Place Node)) (root : Val) (ty : TType)
    (ht : IsTemplate t) (he : ExtFine x info) (hr : TreeOf F u root) (hty : getAt root (typePath t) = some (.str ty.code))
    (hx : leafOut x ver t F u = some (info, src)) :
    ∃ b j, folder src (dot t.name "json".toList) = some (.file b) ∧ readFile b = some j ∧ textAt j "type".toList = some ty.name ∧
      textAt j "obj_version".toList = some (if t = .template then ['2'] else ['4']) := by
  obtain ⟨_, _, _, ov, j, rfl, hj, hw, h1, h2⟩ := template_parts ht hr hty hx
  exact ⟨_, j, leaf_files he hx _ hj, C58_round_trip x.win j hw, h1, h2⟩

/-- the types whose file is copied, and the extension it gets -/
def copies : List (Text × Text) := [("0", "mxl"), ("2", "bin"), ("5", "bin"), ("6", "bin"), ("7", "bin"), ("8", "bin")].map (fun p => (p.1.toList, p.2.toList))

/-- **C63, tables, schemes and the like.**  Their file lies in the sources as it is. -/
theorem C63_copied_source (x : Ext) (ver : Text) (t : Leaf) (F : Text → Option Node) (u : Text) (info : Info) (src : List (Place Node)) (root : Val)
    (code ext : Text) (b : Bytes) (ht : IsTemplate t) (he : ExtFine x info) (hr : TreeOf F u root) (hc : (code, ext) ∈ copies)
    (hty : getAt root (typePath t) = some (.str code)) (hF : F (dot info.uuid ['0']) = some (.file b)) (hx : leafOut x ver t F u = some (info, src)) :
    folder src (dot t.name ext) = some (.file b) := by
  have key : ∀ ty : TType, ty.code = code → ty.copied = some ext → folder src (dot t.name ext) = some (.file b) := by
    intro ty h1 h2
    subst h1
    obtain ⟨p, hp, hsrc, _⟩ := template_parts ht hr hty hx
    have hp' : p.2 = [(dot t.name ext, some b)] := by
      unfold dataParts at hp
      rw [fileAt_file hF, Option.bind_some] at hp
      cases ty <;> first | (cases h2; done) | (cases h2; cases hp; rfl)
    have := leaf_files he hx _ (hsrc (dot t.name ext, some (.file b)) (by rw [hp']; exact List.mem_cons_self))
    exact this
  unfold copies at hc
  simp only [List.map_cons, List.map_nil, List.mem_cons, List.not_mem_nil, or_false, Prod.mk.injEq] at hc
  rcases hc with ⟨rfl, rfl⟩ | ⟨rfl, rfl⟩ | ⟨rfl, rfl⟩ | ⟨rfl, rfl⟩ | ⟨rfl, rfl⟩ | ⟨rfl, rfl⟩
  · exact key .table rfl rfl
  · exact key .active_doc rfl rfl
  · exact key .geographic rfl rfl
  · exact key .scheme rfl rfl
  · exact key .design rfl rfl
  · exact key .graphic_scheme rfl rfl

/-- **C63, texts.**  A text in UTF-8 lies in the sources as a text with the line ends of the system, with its mark if it had one. -/
theorem C63_text_source (x : Ext) (ver : Text) (t : Leaf) (F : Text → Option Node) (u : Text) (info : Info) (src : List (Place Node)) (root : Val)
    (win : Bool) (s : Text) (ht : IsTemplate t) (he : ExtFine x info) (hr : TreeOf F u root) (hty : getAt root (typePath t) = some (.str ['4']))
    (hs : '\r' ∉ s) (hb : s.head? ≠ some bom) (hx : leafOut x ver t F u = some (info, src)) :
    (F (dot info.uuid ['0']) = some (.file (utf8 (osWrite win s))) → folder src (dot t.name "txt".toList) = some (.file (utf8 (osWrite x.win s)))) ∧
    (F (dot info.uuid ['0']) = some (.file (bom8 ++ utf8 (osWrite win s))) →
      folder src (dot t.name "txt".toList) = some (.file (bom8 ++ utf8 (osWrite x.win s)))) := by
  obtain ⟨p, hp, hsrc, _⟩ := template_parts (ty := .text) ht hr hty hx
  unfold dataParts at hp
  constructor
  · intro hF
    rw [fileAt_file hF, Option.bind_some] at hp
    simp only [retext_plain win x.win s hs hb, Option.map_some, Option.some.injEq] at hp
    exact leaf_files he hx _ (hsrc (dot t.name "txt".toList, some (.file (utf8 (osWrite x.win s)))) (by rw [← hp]; exact List.mem_cons_self))
  · intro hF
    rw [fileAt_file hF, Option.bind_some] at hp
    simp only [retext_marked win x.win s hs, Option.map_some, Option.some.injEq] at hp
    exact leaf_files he hx _ (hsrc (dot t.name "txt".toList, some (.file (bom8 ++ utf8 (osWrite x.win s)))) (by rw [← hp]; exact List.mem_cons_self))

/-- **C63, pages.**  The page of an html template, stored as base64 text, lies in the sources as a file of its own. -/
theorem C63_page_source (x : Ext) (ver : Text) (t : Leaf) (F : Text → Option Node) (u : Text) (info : Info) (src : List (Place Node)) (root : Val)
    (b page : Bytes) (d : List (List Val)) (s : Text) (ht : IsTemplate t) (he : ExtFine x info) (hr : TreeOf F u root)
    (hty : getAt root (typePath t) = some (.str ['3'])) (hF : F (dot info.uuid ['0']) = some (.file b)) (hl : b.length ≤ 1000000)
    (hb : braceRead b = some d) (hs : getAt (rootVal d) [0, 3, 0] = some (.str s))
    (hi : s = "##base64:".toList ++ V8.B64.encode page ∨ s = "#base64:".toList ++ V8.B64.encode page ∨ s = "#data:".toList ++ V8.B64.encode page)
    (hx : leafOut x ver t F u = some (info, src)) : folder src (dot t.name "html".toList) = some (.file page) := by
  obtain ⟨p, hp, hsrc, _⟩ := template_parts (ty := .html) ht hr hty hx
  unfold dataParts at hp
  rw [fileAt_file hF, Option.bind_some] at hp
  simp only [Option.map_eq_some_iff] at hp
  obtain ⟨q, hq, rfl⟩ := hp
  obtain ⟨hne, rest, hext⟩ := token_data hi
  have hq1 : q.html = some page := by
    unfold htmlOut tree at hq
    simp only [show ¬ 1000000 < b.length from Nat.not_lt.mpr hl, if_false, hb, Option.map_some] at hq
    have h2 : ∃ w, getP [0, 3] (rootVal d) = some w ∧ getAt w [0] = some (.str s) := by
      rw [show [0, 3, 0] = [0, 3] ++ [0] from rfl, V8.Product.getAt_append, Option.bind_eq_some_iff] at hs
      obtain ⟨w, hw, hw2⟩ := hs
      exact ⟨w, by rw [getP_eq]; exact hw, hw2⟩
    obtain ⟨w, hw, hw2⟩ := h2
    simp only [hw, walk_str hne [0] w hw2] at hq
    unfold takeOut at hq
    simp only [hext, Option.map_some, Option.some.injEq] at hq
    rw [← hq]
  have := leaf_files he hx _ (hsrc (dot t.name "html".toList, q.html.map Node.file) List.mem_cons_self)
  exact this.trans (by rw [hq1]; rfl)

/-- **C63, binary data.**  The file of a template with binary data or an add-in, when it is one base64 text as a whole, is copied. -/
theorem C63_binary_source (x : Ext) (ver : Text) (t : Leaf) (F : Text → Option Node) (u : Text) (info : Info) (src : List (Place Node)) (root : Val)
    (win : Bool) (s : Text) (ht : IsTemplate t) (he : ExtFine x info) (hr : TreeOf F u root)
    (hty : getAt root (typePath t) = some (.str ['1']) ∨ getAt root (typePath t) = some (.str ['9'])) (hs : '\r' ∉ s)
    (hF : F (dot info.uuid ['0']) = some (.file (bom8 ++ utf8 (osWrite win ("{1,\n{#base64".toList ++ s)))))
    (hx : leafOut x ver t F u = some (info, src)) :
    folder src (dot t.name "c1b64".toList) = some (.file (bom8 ++ utf8 (osWrite win ("{1,\n{#base64".toList ++ s)))) ∧
    folder src (dot t.name (V8.Misc.extension x.alnum info.comment)) = none := by
  have hbig := parsedOf_big win s hs
  have key : ∀ p, (some p : Option (List (Place JT) × List (Place Bytes))) = (templateOut parsedOf (some (bom8 ++ utf8 (osWrite win ("{1,\n{#base64".toList ++ s))))).map (fun p =>
        ([], [(dot t.name "c1b64".toList, p.c1b64), (dot t.name (V8.Misc.extension x.alnum info.comment), p.data)])) →
      p.2 = [(dot t.name "c1b64".toList, some (bom8 ++ utf8 (osWrite win ("{1,\n{#base64".toList ++ s)))), (dot t.name (V8.Misc.extension x.alnum info.comment), none)] := by
    intro p hp
    unfold templateOut at hp
    simp only [hbig, Option.map_some, Option.some.injEq] at hp
    rw [hp]
  have fin : ∀ p : List (Place JT) × List (Place Bytes), (∀ q ∈ nodes p.2, q ∈ src) →
      p.2 = [(dot t.name "c1b64".toList, some (bom8 ++ utf8 (osWrite win ("{1,\n{#base64".toList ++ s)))), (dot t.name (V8.Misc.extension x.alnum info.comment), none)] →
      folder src (dot t.name "c1b64".toList) = some (.file (bom8 ++ utf8 (osWrite win ("{1,\n{#base64".toList ++ s)))) ∧
    folder src (dot t.name (V8.Misc.extension x.alnum info.comment)) = none := by
    intro p hsrc hp
    refine ⟨leaf_files he hx _ (hsrc (dot t.name "c1b64".toList, some (.file (bom8 ++ utf8 (osWrite win ("{1,\n{#base64".toList ++ s))))) ?_),
      leaf_files he hx _ (hsrc (dot t.name (V8.Misc.extension x.alnum info.comment), none) ?_)⟩
    · rw [hp]; exact List.mem_cons_self
    · rw [hp]; exact List.mem_cons_of_mem _ List.mem_cons_self
  rcases hty with hty | hty
  · obtain ⟨p, hp, hsrc, _⟩ := template_parts (ty := .base64) ht hr hty hx
    unfold dataParts at hp
    rw [fileAt_file hF, Option.bind_some] at hp
    exact fin p hsrc (key p hp.symm)
  · obtain ⟨p, hp, hsrc, _⟩ := template_parts (ty := .extension) ht hr hty hx
    unfold dataParts at hp
    rw [fileAt_file hF, Option.bind_some] at hp
    exact fin p hsrc (key p hp.symm)

/-- **C63, web service references.**  The folder of a reference lies in the sources as it is, in `<name>/WSReference`. -/
theorem C63_reference_source (x : Ext) (ver : Text) (F : Text → Option Node) (u : Text) (info : Info) (src : List (Place Node)) (f : Text → Option Bytes)
    (he : ExtFine x info) (hF : F (dot info.uuid ['0']) = some (.dir f)) (hx : leafOut x ver .reference F u = some (info, src)) :
    folder src (info.name ++ "/WSReference".toList) = some (.dir f) := by
  have hfiles := leaf_files he hx
  obtain ⟨b', d', cv, hd, h', r, p, hF', hb', hc, hg, hdec, hset, hpo, rfl⟩ := leafOut_some hx
  unfold partsOut at hpo
  cases hpo
  have := hfiles (copyName info.name, dirOnly (F (dot info.uuid ['0']))) (List.mem_append_left _ List.mem_cons_self)
  rw [hF] at this
  exact this

/-! ## what is lost -/

/-- **C63, false for a reference whose data are a plain file.**  The file is left out of the sources and of the container that is built. -/
theorem C63_reference_file_lost (x : Ext) (y : Bld) (ver : Text) (F : Text → Option Node) (u : Text) (d : List (List Val)) (c : Cls) (info : Info)
    (src : List (Place Node)) (b : Bytes) (hF : F (dot u ['0']) = some (.file b))
    (hf : LeafFit x y (fun n => if n = dot u ['0'] then none else F n) .reference u d c) (hp : y.p = x.p)
    (hx : leafOut x ver .reference F u = some (info, src)) :
    leafBack x y .reference (folder src) = some (some ⟨u, info.name, .str u⟩, [(u, .file (braceFile y.win d))]) := by
  have hne : u ≠ dot u ['0'] := by
    intro h
    have := congrArg List.length h
    unfold dot at this
    simp at this
  have huF : F u = some (.file (braceFile y.win d)) := by
    have := hf.file
    rwa [if_neg hne] at this
  have hinfo : info.uuid = u := by
    obtain ⟨b', d', cv, hd, h', r, p, hF', hb', hc, hg, hdec, hset, hpo, rfl⟩ := leafOut_some hx
    rw [huF] at hF'
    cases hF'
    rw [C59_brace_file_round_trip y.win d hf.ne hf.wf] at hb'
    cases hb'
    have hpl := placeAt_clsAt hc
    rw [hf.place] at hpl
    have hcc : c = cv.1 := Option.some.inj hpl
    subst hcc
    have hhd : headerOf cv.1 d = hd := by unfold headerOf; rw [hg]
    obtain ⟨l, tok, h1, h2, _⟩ := decode_ok hdec
    obtain ⟨l', g1, g2⟩ := hf.uuid
    rw [hhd, h1] at g1
    cases g1
    rw [h2] at g2
    exact Val.str.inj (Option.some.inj g2)
  have hx' : leafOut x ver .reference (fun n => if n = dot u ['0'] then none else F n) u = some (info, src) := by
    rw [← hx]
    unfold leafOut
    simp only [if_neg hne, huF]
    rw [C59_brace_file_round_trip y.win d hf.ne hf.wf]
    simp only [Option.bind_some]
    have hpo : ∀ i : Info, i.uuid = u → partsOut x .reference (fun n => if n = dot u ['0'] then none else F n) i (rootVal d) = partsOut x .reference F i (rootVal d) := by
      intro i hi
      unfold partsOut referenceParts
      simp only [hi, hF, if_true, dirOnly]
    obtain ⟨b', d', cv, hd, h', r, p, hF', hb', hc, hg, hdec, hset, _⟩ := leafOut_some hx
    rw [huF] at hF'
    cases hF'
    rw [C59_brace_file_round_trip y.win d hf.ne hf.wf] at hb'
    cases hb'
    simp only [hc, Option.bind_some, hg, hdec, hset, hpo info hinfo]
  obtain ⟨_, _, _, h⟩ := leaf_back x y ver .reference _ u d c info src hf hp hx'
  rw [h]
  unfold leafNames written
  simp only [List.map_cons, List.map_nil, if_true, if_neg hne, huF]
  rfl

theorem folder_shadow {α : Type} (q : Place α) (ps : List (Place α)) (v : α) (h : (q.1, some v) ∈ ps) : folder (q :: ps) = folder ps := by
  funext n
  unfold folder
  have hw : written (q :: ps) = (q.2.map (fun v => (q.1, v))).toList ++ written ps := by
    unfold written
    rw [List.filterMap_cons]
    cases q.2 <;> rfl
  rw [hw, List.reverse_append, List.find?_append]
  by_cases hn : n = q.1
  · subst hn
    have hm : (q.1, v) ∈ written ps := by
      unfold written
      rw [List.mem_filterMap]
      exact ⟨_, h, rfl⟩
    cases hfd : (written ps).reverse.find? (fun p => decide (p.1 = q.1)) with
    | some w => rfl
    | none =>
      rw [List.find?_eq_none] at hfd
      exact absurd (decide_eq_true rfl) (hfd (q.1, v) (List.mem_reverse.mpr hm))
  · cases hq : q.2 with
    | none => simp
    | some w =>
      have : ([(q.1, w)] : List (Text × α)).reverse.find? (fun p => decide (p.1 = n)) = none := by
        simp [Ne.symm hn]
      simp only [Option.map_some, Option.toList_some, this, Option.or_none]

/-- **C63, false for a picture whose comment ends in the word json.**  Its image is written to the file of its description and overwritten by it: two
pictures that differ in the image only have the same sources. -/
theorem C63_picture_json_lost (x : Ext) (ver : Text) (F F' : Text → Option Node) (u : Text) (info info' : Info) (src src' : List (Place Node))
    (b b' img img' : Bytes) (v : Val) (hu : F u = F' u) (hx : leafOut x ver .picture F u = some (info, src)) (hx' : leafOut x ver .picture F' u = some (info', src'))
    (he : V8.Misc.extension x.alnum info.comment = "json".toList)
    (hF : F (dot info.uuid ['0']) = some (.file b)) (hF' : F' (dot info.uuid ['0']) = some (.file b'))
    (hb : pictureOut tree (some b) = some (some img, some v)) (hb' : pictureOut tree (some b') = some (some img', some v)) :
    folder src = folder src' := by
  obtain ⟨a, d, cv, hd, h1, r, p, g1, g2, g3, g4, g5, g6, hpo, rfl⟩ := leafOut_some hx
  obtain ⟨a', d', cv', hd', h1', r', p', g1', g2', g3', g4', g5', g6', hpo', rfl⟩ := leafOut_some hx'
  rw [hu, g1'] at g1
  cases g1
  rw [g2] at g2'
  cases g2'
  rw [g3] at g3'
  cases g3'
  rw [g4] at g4'
  cases g4'
  rw [g5] at g5'
  cases g5'
  rw [g6] at g6'
  cases g6'
  unfold partsOut pictureParts at hpo hpo'
  simp only [fileAt_file hF, Option.bind_some, hb, Option.map_some, Option.some.injEq] at hpo
  simp only [fileAt_file hF', Option.bind_some, hb', Option.map_some, Option.some.injEq] at hpo'
  subst hpo
  subst hpo'
  simp only [he]
  have key : ∀ (i z : Bytes) (q : Place Bytes), folder (nodes [(dot Leaf.picture.name "json".toList, some i)] ++ nodes [q, (objName Leaf.picture.name, some z)]) =
      folder (nodes [q, (objName Leaf.picture.name, some z)]) := by
    intro i z q
    exact folder_shadow (objName Leaf.picture.name, some (Node.file i)) _ (Node.file z) (List.mem_cons_of_mem _ List.mem_cons_self)
  rw [key, key]
  rfl

end V8.Leaf
