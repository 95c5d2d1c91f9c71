import Verif.Props.LeafSpec
/-
Examples for C63: a picture, a text template, a common template with binary data, a web service reference, extracted on Windows with a prefix and built on Unix.
-/
namespace V8.Leaf
open V8.Brace V8.Enc V8.JsonText V8.Header V8.Object V8.Embed V8.Store
open V8.Module (strDecode)
open V8.Product (getAt setAt)

/-- extraction succeeds when each of its steps does -/
theorem leafOut_of {x : Ext} {ver : Text} {t : Leaf} {F : Text → Option Node} {u : Text} {b : Bytes} {d : List (List Val)} {c : Cls × Text} {hd h' : List Val}
    {info : Info} {r : Val} {p : Parts} (h1 : F u = some (.file b)) (h2 : braceRead b = some d) (h3 : clsAt ver (rootVal d) t = some c)
    (h4 : getAt (rootVal d) c.1.path = some (.list hd)) (h5 : decodeHeader x.valid x.p true hd = .ok (info, h'))
    (h6 : setAt (rootVal d) c.1.path (.list h') = some r) (h7 : partsOut x t F info (rootVal d) = some p) :
    ∃ src, leafOut x ver t F u = some (info, src) := by
  unfold leafOut
  rw [h1]
  simp only [h2, Option.bind_some, h3, h4, h5, h6, h7, Option.map_some]
  exact ⟨_, rfl⟩

def eX : Ext := { E := ⟨fun _ => none, fun _ => none, fun _ => .missing, fun _ _ => none⟩, auto := false, valid := fun u => !u.isEmpty, p := "ОО_".toList, win := true }
def eY : Bld := ⟨⟨fun _ => none, fun _ => none, fun _ => .missing, fun _ _ => none⟩, false, "ОО_".toList, [], false, none, []⟩

def eHead (name comment : Text) : List Val :=
  [.str ['0'], .list [.str ['1'], .str ['0'], .str ['u']], .str name, .list [.str ['0']], .str comment, .str ['0']]
def eSep (name comment : Text) : List Val :=
  [.str ['0'], .list [.str ['1'], .str ['0'], .str elsewhere], .str name, .list [.str ['0']], .str comment, .str ['0']]

/-! ### a picture -/

def ePic : List (List Val) := [[.str ['1'], .list [.str ['3'], .list (eHead "\"ОО_Склад\"".toList "\"схема png\"".toList)]]]
def eImg : List (List Val) := [[.str ['4'], .list [.str ['0']], .list [.list [.str ("##base64:".toList ++ V8.B64.encode [137, 80, 78, 71])]]]]
noncomputable def eF (d : List (List Val)) (n : Option Node) : Text → Option Node := fun m =>
  if m = ['u'] then some (.file (braceFile false d)) else if m = dot ['u'] ['0'] then n else none

theorem eF_u (d : List (List Val)) (n : Option Node) : eF d n ['u'] = some (.file (braceFile false d)) := by unfold eF; rw [if_pos rfl]
theorem eF_0 (d : List (List Val)) (n : Option Node) : eF d n (dot ['u'] ['0']) = n := by unfold eF; rw [if_neg (by decide), if_pos rfl]

theorem ePre (name comment : Text) : PrefixOk eX.p eY.parent (eHead ('"' :: "ОО_".toList ++ name ++ ['"']) comment) := by
  refine ⟨"ОО_".toList ++ name, rfl, ?_⟩
  rw [if_pos ⟨List.not_mem_nil, rfl⟩]
  exact ⟨name, rfl⟩

/-- everything asked of an object, given that its steps succeed -/
theorem eFit (t : Leaf) (d : List (List Val)) (n : Option Node) (name comment : Text) (c : Cls) (hne : d ≠ []) (hw : WFFile d)
    (hp : placeAt (rootVal d) t = some c) (hh : getAt (rootVal d) c.path = some (.list (eHead ('"' :: "ОО_".toList ++ name ++ ['"']) comment)))
    (hd : DataOk false t (V8.Misc.extension eX.alnum (strDecode comment)) (rootVal d) n) : LeafFit eX eY (eF d n) t ['u'] d c := by
  have hhd : headerOf c d = eHead ('"' :: "ОО_".toList ++ name ++ ['"']) comment := by unfold headerOf; rw [hh]
  refine ⟨eF_u d n, hne, hw, hp, ?_, ?_, ?_⟩
  · rw [hhd]; exact ⟨_, rfl, rfl⟩
  · rw [hhd]; exact ePre name comment
  · intro tok htok
    rw [hhd] at htok
    have : comment = tok := Val.str.inj (Option.some.inj htok)
    subst this
    rw [eF_0]
    exact hd

theorem eW_pic : WFFile ePic := fileB_ok ePic (by decide +kernel)
theorem eW_img : WFFile eImg := by
  refine ⟨?_, trivial⟩
  intro l hl
  rw [eImg, List.mem_singleton] at hl
  subst hl
  unfold WFRoot
  rw [WFVal]
  refine .inr ⟨List.cons_ne_nil _ _, ?_⟩
  rw [WFElems, WFElems, WFElems, WFElems]
  refine ⟨valB_ok _ _ _ (by decide +kernel), valB_ok _ _ _ (by decide +kernel), ?_, trivial⟩
  rw [WFVal]
  refine .inr ⟨List.cons_ne_nil _ _, ?_⟩
  rw [WFElems, WFElems]
  refine ⟨?_, trivial⟩
  rw [WFVal]
  exact .inl ⟨_, rfl, V8.B64.encode [137, 80, 78, 71], by decide +kernel, .inl rfl⟩
theorem eR_pic : braceRead (braceFile false ePic) = some ePic := C59_brace_file_round_trip false ePic (by decide) eW_pic
theorem eR_img : braceRead (braceFile false eImg) = some eImg := C59_brace_file_round_trip false eImg (by decide) eW_img

def eInfo (name comment : Text) : Info := ⟨['u'], name, [], comment⟩

/-- the picture meets what C63_object and C63_picture_source ask for -/
theorem ePicture : LeafFit eX eY (eF ePic (some (.file (braceFile false eImg)))) .picture ['u'] ePic (plain [1]) ∧
    (∃ src, leafOut eX "803".toList .picture (eF ePic (some (.file (braceFile false eImg)))) ['u'] = some (eInfo "Склад".toList "схема png".toList, src)) ∧
    V8.Misc.extension eX.alnum "схема png".toList = "png".toList ∧ getAt (rootVal eImg) [0, 2, 0, 0] = some (.str ("##base64:".toList ++ V8.B64.encode [137, 80, 78, 71])) := by
  have hext : V8.Misc.extension eX.alnum "схема png".toList = "png".toList := by decide +kernel
  refine ⟨?_, ?_, hext, by decide +kernel⟩
  · refine eFit .picture ePic _ "Склад".toList "\"схема png\"".toList (plain [1]) (by decide) eW_pic rfl (by decide +kernel) ⟨.inr ?_, by decide +kernel⟩
    exact ⟨eImg, "##base64:".toList ++ V8.B64.encode [137, 80, 78, 71], rfl, by decide, eW_img, by decide +kernel, (fun h => by cases h), _, .inl rfl⟩
  · have hp : ∃ q, pictureOut tree (some (braceFile false eImg)) = some q := by
      unfold pictureOut tree
      simp only [eR_img, Option.map_some]
      simp only [show getP [0, 2] (rootVal eImg) = some (.list [.list [.str ("##base64:".toList ++ V8.B64.encode [137, 80, 78, 71])]]) from rfl,
        show walk [0, 0] (.list [.list [.str ("##base64:".toList ++ V8.B64.encode [137, 80, 78, 71])]]) = .ok (some (.str ("##base64:".toList ++ V8.B64.encode [137, 80, 78, 71]))) from
        walk_str (fun h => by cases h) [0, 0] _ rfl]
      unfold takeOut
      simp only [show extractTok ("##base64:".toList ++ V8.B64.encode [137, 80, 78, 71]) = some ([137, 80, 78, 71], pre2) from extract_pre2 _]
      exact ⟨_, rfl⟩
    obtain ⟨q, hq⟩ := hp
    have hparts : ∃ p, partsOut eX .picture (eF ePic (some (.file (braceFile false eImg)))) (eInfo "Склад".toList "схема png".toList) (rootVal ePic) = some p := by
      unfold partsOut pictureParts
      simp only
      rw [fileAt_file (b := braceFile false eImg) (n := dot (eInfo "Склад".toList "схема png".toList).uuid ['0']) (eF_0 _ _), Option.bind_some, hq, Option.map_some]
      exact ⟨_, rfl⟩
    obtain ⟨p, hp⟩ := hparts
    exact leafOut_of (eF_u _ _) eR_pic (c := (plain [1], "803".toList)) rfl (hd := eHead "\"ОО_Склад\"".toList "\"схема png\"".toList) (by decide +kernel)
      (h' := eSep "\"Склад\"".toList "\"схема png\"".toList) (by decide +kernel) (r := .list [.list [.str ['1'], .list [.str ['3'], .list (eSep "\"Склад\"".toList "\"схема png\"".toList)]]]) (by decide +kernel) hp

/-! ### a text template -/

def eTxt : List (List Val) := [[.str ['1'], .list [.str ['2'], .str ['4'], .list (eHead "\"ОО_Текст\"".toList "\"\"".toList)]]]
theorem eW_txt : WFFile eTxt := fileB_ok eTxt (by decide +kernel)
theorem eR_txt : braceRead (braceFile false eTxt) = some eTxt := C59_brace_file_round_trip false eTxt (by decide) eW_txt
def eLine : Text := "раз\nдва\n".toList

/-- the template meets what C63_object, C63_type_recorded and C63_text_source ask for -/
theorem eTemplate : LeafFit eX eY (eF eTxt (some (.file (utf8 (osWrite false eLine))))) .template ['u'] eTxt (plain [2]) ∧
    (∃ src, leafOut eX "803".toList .template (eF eTxt (some (.file (utf8 (osWrite false eLine))))) ['u'] = some (eInfo "Текст".toList [], src)) ∧
    ExtFine eX (eInfo "Текст".toList []) ∧ getAt (rootVal eTxt) (typePath .template) = some (.str ['4']) ∧ '\r' ∉ eLine ∧ eLine.head? ≠ some bom := by
  refine ⟨?_, ?_, ⟨by decide +kernel, by decide +kernel⟩, by decide +kernel, by decide, by decide⟩
  · refine eFit .template eTxt _ "Текст".toList "\"\"".toList (plain [2]) (by decide) eW_txt (by decide +kernel) (by decide +kernel) ?_
    intro ty hty
    have h4 : typeAt .template (rootVal eTxt) = some .text := typeAt_of (ty := .text) (by decide +kernel)
    rw [h4] at hty
    cases hty
    exact .inr ⟨eLine, by decide, .inl ⟨rfl, by decide⟩⟩
  · have hparts : ∃ p, partsOut eX .template (eF eTxt (some (.file (utf8 (osWrite false eLine))))) (eInfo "Текст".toList []) (rootVal eTxt) = some p := by
      unfold partsOut templateParts
      simp only
      rw [show typeAt .template (rootVal eTxt) = some .text from typeAt_of (ty := .text) (by decide +kernel), Option.bind_some]
      unfold dataParts
      rw [fileAt_file (b := utf8 (osWrite false eLine)) (n := dot (eInfo "Текст".toList []).uuid ['0']) (eF_0 _ _), Option.bind_some]
      simp only [retext_plain false eX.win eLine (by decide) (by decide), Option.map_some]
      exact ⟨_, rfl⟩
    obtain ⟨p, hp⟩ := hparts
    exact leafOut_of (eF_u _ _) eR_txt (c := (plain [2], ['2'])) (by decide +kernel) (hd := eHead "\"ОО_Текст\"".toList "\"\"".toList) (by decide +kernel)
      (h' := eSep "\"Текст\"".toList "\"\"".toList) (by decide +kernel) (r := .list [.list [.str ['1'], .list [.str ['2'], .str ['4'], .list (eSep "\"Текст\"".toList "\"\"".toList)]]]) (by decide +kernel) hp

/-! ### a common template with binary data -/

def eBin : List (List Val) := [[.str ['1'], .list [.str ['4'], .list (eHead "\"ОО_Драйвер\"".toList "\"драйвер zip\"".toList), .str ['1']]]]
theorem eW_bin : WFFile eBin := fileB_ok eBin (by decide +kernel)
theorem eR_bin : braceRead (braceFile false eBin) = some eBin := C59_brace_file_round_trip false eBin (by decide) eW_bin
noncomputable def eData : Bytes := bom8 ++ utf8 (osWrite false ("{1,\n{#base64".toList ++ ":UEs=}\n}".toList))

/-- the common template meets what C63_object and C63_binary_source ask for -/
theorem eCommon : LeafFit eX eY (eF eBin (some (.file eData))) .commonTemplate ['u'] eBin (plain [1]) ∧
    (∃ src, leafOut eX "803".toList .commonTemplate (eF eBin (some (.file eData))) ['u'] = some (eInfo "Драйвер".toList "драйвер zip".toList, src)) ∧
    ExtFine eX (eInfo "Драйвер".toList "драйвер zip".toList) ∧ getAt (rootVal eBin) (typePath .commonTemplate) = some (.str ['1']) := by
  have hbig : parsedOf eData = .big := parsedOf_big false _ (by decide)
  have h4 : typeAt .commonTemplate (rootVal eBin) = some .base64 := typeAt_of (ty := .base64) (by decide +kernel)
  refine ⟨?_, ?_, ⟨by decide +kernel, by decide +kernel⟩, by decide +kernel⟩
  · refine eFit .commonTemplate eBin _ "Драйвер".toList "\"драйвер zip\"".toList (plain [1]) (by decide) eW_bin (by decide +kernel) (by decide +kernel) ?_
    intro ty hty
    rw [h4] at hty
    cases hty
    exact ⟨.inr ⟨eData, rfl, hbig⟩, by decide +kernel, by decide +kernel⟩
  · have hparts : ∃ p, partsOut eX .commonTemplate (eF eBin (some (.file eData))) (eInfo "Драйвер".toList "драйвер zip".toList) (rootVal eBin) = some p := by
      unfold partsOut templateParts
      simp only
      rw [h4, Option.bind_some]
      unfold dataParts
      rw [fileAt_file (b := eData) (n := dot (eInfo "Драйвер".toList "драйвер zip".toList).uuid ['0']) (eF_0 _ _), Option.bind_some]
      simp only [templateOut, hbig, Option.map_some]
      exact ⟨_, rfl⟩
    obtain ⟨p, hp⟩ := hparts
    exact leafOut_of (eF_u _ _) eR_bin (c := (plain [1], ['4'])) (by decide +kernel) (hd := eHead "\"ОО_Драйвер\"".toList "\"драйвер zip\"".toList) (by decide +kernel)
      (h' := eSep "\"Драйвер\"".toList "\"драйвер zip\"".toList) (by decide +kernel)
      (r := .list [.list [.str ['1'], .list [.str ['4'], .list (eSep "\"Драйвер\"".toList "\"драйвер zip\"".toList), .str ['1']]]]) (by decide +kernel) hp

/-! ### a web service reference -/

def eRef : List (List Val) := [[.str ['1'], .list [.str ['1'], .str ['h'], .list (eHead "\"ОО_Курсы\"".toList "\"\"".toList)]]]
theorem eW_ref : WFFile eRef := fileB_ok eRef (by decide +kernel)
theorem eR_ref : braceRead (braceFile false eRef) = some eRef := C59_brace_file_round_trip false eRef (by decide) eW_ref

theorem eReference (n : Option Node) (hn : ∀ b, n ≠ some (.file b)) : LeafFit eX eY (eF eRef n) .reference ['u'] eRef (plain [2]) :=
  eFit .reference eRef n "Курсы".toList "\"\"".toList (plain [2]) (by decide) eW_ref rfl (by decide +kernel) hn

theorem eReference_out (n : Option Node) : ∃ src, leafOut eX "803".toList .reference (eF eRef n) ['u'] = some (eInfo "Курсы".toList [], src) :=
  leafOut_of (eF_u _ _) eR_ref (c := (plain [2], "803".toList)) rfl (hd := eHead "\"ОО_Курсы\"".toList "\"\"".toList) (by decide +kernel)
    (h' := eSep "\"Курсы\"".toList "\"\"".toList) (by decide +kernel)
    (r := .list [.list [.str ['1'], .list [.str ['1'], .str ['h'], .list (eSep "\"Курсы\"".toList "\"\"".toList)]]]) (by decide +kernel) rfl

/-- a reference with a folder comes back, one with a plain file loses it -/
example (f : Text → Option Bytes) (b : Bytes) :
    (∃ src files, leafOut eX "803".toList .reference (eF eRef (some (.dir f))) ['u'] = some (eInfo "Курсы".toList [], src) ∧
      folder src "Курсы/WSReference".toList = some (.dir f) ∧ leafBack eX eY .reference (folder src) = some (some ⟨['u'], "Курсы".toList, .str ['u']⟩, files) ∧
      (dot ['u'] ['0'], Node.dir f) ∈ files) ∧
    ∃ src, leafOut eX "803".toList .reference (eF eRef (some (.file b))) ['u'] = some (eInfo "Курсы".toList [], src) ∧
      leafBack eX eY .reference (folder src) = some (some ⟨['u'], "Курсы".toList, .str ['u']⟩, [(['u'], .file (braceFile false eRef))]) := by
  constructor
  · obtain ⟨src, hs⟩ := eReference_out (some (.dir f))
    obtain ⟨files, h1, h2⟩ := C63_object eX eY _ .reference _ _ _ _ _ _ (eReference _ (fun b h => by cases h)) rfl hs
    exact ⟨src, files, hs, C63_reference_source eX _ _ _ _ src f ⟨by decide +kernel, by decide +kernel⟩ (eF_0 _ _) hs, h1, (h2 _ _).mpr ⟨.inr rfl, eF_0 _ _⟩⟩
  · obtain ⟨src, hs⟩ := eReference_out (some (.file b))
    refine ⟨src, hs, C63_reference_file_lost eX eY _ _ _ eRef (plain [2]) _ src b (eF_0 _ _) ?_ rfl hs⟩
    have : (fun n => if n = dot ['u'] ['0'] then none else eF eRef (some (.file b)) n) = eF eRef none := by
      funext n
      unfold eF
      by_cases h1 : n = dot ['u'] ['0']
      · rw [if_pos h1, h1, if_neg (by decide), if_pos rfl]
      · rw [if_neg h1, if_neg h1, if_neg h1]
    rw [this]
    exact eReference none (fun b h => by cases h)

end V8.Leaf
