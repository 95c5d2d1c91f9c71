import Verif.Leaf
import Verif.FormJson
/-
Model of a form as an object with its files, both ways:
/repo/src/v8unpack/MetaDataObject/Form/__init__.py (the classes), /repo/src/v8unpack/MetaDataObject/Form/FormCore.py,
/repo/src/v8unpack/MetaDataObject/*Form.py (which class is which), with /repo/src/v8unpack/MetaDataObject/__init__.py:24-61, 114-187,
/repo/src/v8unpack/MetaObject/__init__.py:262-341, /repo/src/v8unpack/MetaDataObject/core/Simple.py:19-23.

In the container a form has its own file `uuid`, the form `uuid.0` (an ordinary form: a folder with the files `form` and `module`; a managed form:
one file with the code in it) and sometimes `uuid.1`.  In the sources it has the two JSON files, the code, and the elements (`<form>.elem.json`).
The elements themselves are Verif/Form.lean (managed), Verif/OForm.lean (ordinary) and Verif/OFormAuto.lean (ordinary, with auto_include).
-/
namespace V8.FormObj
open V8.Brace V8.Enc V8.JsonText V8.Header V8.Object V8.FormJson
open V8.Store hiding Kind
open V8.Leaf (versionAt plain names)
open V8.Module (EncName Code readRaw writeText writeDecode readCode getset formCodeOut formCodeIn comment)
open V8.Product (getAt setAt)

/-- the classes of forms by the place of their data: Form/__init__.py:6-49 -/
inductive Site where
  | form
  | form1
  | form0
deriving DecidableEq

/-- get_form_root: Form/__init__.py:19-27, 40-49: the place of `form_root[1]` below `header_data[0][1]`; `none` is NotImplementedError -/
def within (root : Val) : Site → Option (List Nat)
  | .form => (versionAt root).bind (fun v => if v = ['0'] then some [1] else if v = ['1'] then some [1, 1] else none)
  | .form1 => some [1]
  | .form0 => some []

/-- versions: Form/__init__.py:7-14 -/
def versions : List Text := [['5'], ['7'], ['9'], ['1', '2'], ['1', '3'], ['1', '4']]

/-- the place of `form_root[1][i]` -/
def slot (q : List Nat) (i : Nat) : List Nat := 0 :: 1 :: (q ++ [i])

/-- get_version, get_handler, get_decode_header: Form/__init__.py:29-37, MetaDataObject/__init__.py:33-45, FormCore.py:59-64: the place of the
header and the version that is recorded; `none` is an exception -/
def clsAt (root : Val) (s : Site) : Option (Cls × Text) := (within root s).bind (fun q => match getAt root (slot q 0) with
  | some (.str v) => if v ∈ versions then some (plain (q ++ [1]), v) else none
  | _ => none)

/-- decode_data: FormCore.py:233-240: the type of the form.  Left out (`none`): a type that is no text. -/
def typeAt (root : Val) (s : Site) : Option Text := (within root s).bind (fun q => match getAt root (0 :: 1 :: q) with
  | some (.list l) => match (l[3]? : Option Val) with
    | none => some ['0']
    | some (.str t) => some t
    | some _ => none
  | _ => none)

/-- a brace file -/
abbrev File := List (List Val)

/-- 'Код в отдельном файле': FormCore.py:103, 107 -/
def elsewhereCode : Text := "Код в отдельном файле".toList

/-- what stands in the place of `uuid.0` -/
inductive Zero where
  | missing
  /-- the folder of an ordinary form -/
  | apart (form : File) (code : Option Code) (enc : EncName)
  /-- the file of a managed form, after the code was taken out -/
  | inline (form : File) (code : Text)

/-- decode_form0, decode_form0_from_dir, decode_form0_from_file, decode_code: FormCore.py:71-110, 181-186, MetaObject/__init__.py:290-296;
`none` is an exception.  Left out: an ordinary form whose `uuid.0` is a file on Windows, where the exception is FileNotFoundError (line 99). -/
noncomputable def zeroOut (ty : Text) (n : Option Node) : Option Zero :=
  if ty = ['0'] then match n with
    | none => some .missing
    | some (.dir f) => ((f "form".toList).bind braceRead).map (fun d =>
        .apart d (readRaw true (f "module".toList)).1 (readRaw true (f "module".toList)).2)
    | some (.file _) => none
  else match n with
    | none => some .missing
    | some (.file b) => (braceRead b).bind (fun d => match getset d elsewhereCode with
      | .ok (tok, d') => some (.inline d' (formCodeOut tok))
      | .error _ => none)
    | some (.dir _) => none

/-- the list `form` before `uuid.1` is appended: FormCore.py:89, 100, 110 -/
def firstOf (ty : Text) : Zero → List File
  | .missing => if ty = ['0'] then [] else [[]]
  | .apart d _ _ => [d]
  | .inline d _ => [d]

/-- decode_form1: FormCore.py:81-86 -/
noncomputable def oneOut (n : Option (Option Bytes)) : Option (List File) := match n with
  | none => none
  | some none => some []
  | some (some b) => (braceRead b).map (fun d => [d])

/-- the classes that take a form apart -/
inductive Decoder where
  | managed
  /-- name_index and `ver` of the elements: 3 and 26, 4 and 27 -/
  | ordinary (ni : Nat) (ver : Int)
deriving DecidableEq

/-- supported_form_versions: FormCore.py:20-30 -/
def supported (s : Text) : Option Decoder :=
  if s = ['1'] then some .managed
  else if s = "0-26".toList then some (.ordinary 3 26)
  else if s = "0-27".toList then some (.ordinary 4 27)
  else none

/-- a value inside an f-string.  Left out (`none`): a list. -/
def shown : Val → Option Text
  | .str s => some s
  | .none => some "None".toList
  | .list _ => none

/-- the last part of the version: FormCore.py:168-172; `none` is IndexError, `some []`: the TypeError of None is passed over -/
def lastPart (raw : List Val) : Option Text := match (raw[1]? : Option Val) with
  | some .none => some []
  | some v => ((V8.Form.idx v 0).bind shown).map (fun s => '-' :: s)
  | none => none

/-- get_form_element_decoder: FormCore.py:152-178: 'Версия элементов формы' and the class; `none` is an exception -/
def decoderOf (ty : Text) : List File → Option (Text × Option Decoder)
  | (raw :: _) :: _ => match supported ty with
    | some d => some (ty, some d)
    | none => ((raw[0]? : Option Val).bind shown).bind (fun a => match supported (ty ++ '-' :: a) with
      | some d => some (ty ++ '-' :: a, some d)
      | none => (lastPart raw).map (fun b => (ty ++ '-' :: a ++ b, supported (ty ++ '-' :: a ++ b))))
  | _ => some ([], none)

/-- limits of an extraction or build: the depth of the elements, and the data of elements that are left behind when a managed form cannot be taken
apart (they depend on how far it came; FormElements4/FormElement.py:89) -/
structure Lim where
  depth : Nat
  left : List Val → List (Text × V8.Form.Data)

/-- what is left behind when a managed form cannot be taken apart: FormElements4.py:21-29, FormCore.py:35-40 -/
def leftManaged (g : Lim) (con : Option Text) (raw : List Val) : V8.Form.Src :=
  let a := V8.Form.slotOut (V8.Form.propOut con) 3 raw
  ⟨a.2, (V8.Form.slotOut V8.Form.commandOut 5 a.1).2, some [], [], g.left raw⟩

/-- the attributes that are left behind when an ordinary form cannot be taken apart: FormElements27.py:37, FormCore.py:38 -/
def leftAttrs (ni : Nat) (raw : List Val) : Option (List V8.Form.Rec) := match V8.OForm.get2 raw 2 2 with
  | some (.list al) => match V8.OForm.attrsOut ni al with
    | some r => r.2
    | none => some []
  | _ => some []

/-- the form is taken apart: FormCore.py:189-198, 220-230, FormElements4.py:77 (the data are sorted): the form that is left, and the file of the
elements; `auto` is the option auto_include (FormElements27.py:21-25) -/
def elemsOut (g : Lim) (auto : Bool) (con : Option Text) : Option Decoder → List File → Option (List File × JT)
  | some .managed, (raw :: rows) :: more => match V8.Form.decodeForm g.depth con raw with
    | some r => some ((r.1 :: rows) :: more, managedJson { r.2 with data := sortBy (·.1) r.2.data })
    | none => some ((raw :: rows) :: more, managedJson (leftManaged g con raw))
  | some (.ordinary ni ver), (raw :: rows) :: more =>
    if auto then some (((V8.OAuto.takeApart ni g.depth raw (leftAttrs ni raw)).1 :: rows) :: more,
      autoJson ver (V8.OAuto.takeApart ni g.depth raw (leftAttrs ni raw)).2)
    else some (((V8.OForm.takeApart ni g.depth raw (leftAttrs ni raw)).1 :: rows) :: more,
      ordinaryJson ver (V8.OForm.takeApart ni g.depth raw (leftAttrs ni raw)).2)
  | _, form => some (form, nothingJson)

def typeWord : Text := "Тип формы".toList
def versionWord : Text := "Версия элементов формы".toList
def formWord : Text := "form".toList
def objWord : Text := "obj".toList

/-- the list `form` in the description -/
def formJson (form : List File) : JT := .arr (form.map (fun d => jsonOf (rootVal d)))

/-- the entries of the description that belong to the form, in the order in which they are made: FormCore.py:43-53, 89-92, 107-110, 153-170, 237 -/
def formPlaces (ty : Text) (z : Zero) (form : List File) (v : Text) : List (Place JT) :=
  (typeWord, some (.str ty)) :: (match z with
    | .apart _ _ enc => [(formWord, some (formJson form)), (encKey objWord, some (.str (encName enc))), (infoKey objWord, some (.int 1)),
        (versionWord, some (.str v))]
    | .inline _ _ => [(infoKey objWord, some (.str elsewhereCode)), (formWord, some (formJson form)), (versionWord, some (.str v))]
    | .missing => if form = [] then [(versionWord, some (.str v)), (formWord, some (formJson form))]
        else [(formWord, some (formJson form)), (versionWord, some (.str v))])

/-- the code in the sources: MetaObject/__init__.py:322-329 -/
noncomputable def codeFiles (win : Bool) : Zero → Option Bytes × Option Bytes
  | .missing => (none, none)
  | .apart _ code enc => writeDecode win code enc
  | .inline _ code => writeDecode win (some (.text code)) .utf8

def elemName (n : Text) : Text := dot n "elem.json".toList

/-- a class of forms: its name and where its data stand -/
structure FCls where
  name : Text
  site : Site
deriving DecidableEq

/-- the description: MetaObject/__init__.py:53-56, FormCore.py:215 -/
def places (ver : Text) (info : Info) (header : Val) (ps : List (Place JT)) : List (Place JT) :=
  names info ++ [("header".toList, some (jsonOf header))] ++ ps ++ [("obj_version".toList, some (.str ver))]

/-- decode: MetaDataObject/__init__.py:47-61, FormCore.py:66-69, 180-231: what is recorded and the files of the sources; `con` is
parent_container_uuid -/
noncomputable def formOut (x : Ext) (g : Lim) (con : Option Text) (f : FCls) (F : Text → Option Node) (u : Text) : Option (Info × List (Place Node)) :=
  match F u with
  | some (.file b) => (braceRead b).bind (fun d => (clsAt (rootVal d) f.site).bind (fun c => match getAt (rootVal d) c.1.path with
    | some (.list h) => match decodeHeader x.valid x.p true h with
      | .ok (info, h') => (setAt (rootVal d) c.1.path (.list h')).bind (fun r => (typeAt (rootVal d) f.site).bind (fun ty =>
          (zeroOut ty (F (dot info.uuid ['0']))).bind (fun z => (oneOut (fileAt F (dot info.uuid ['1']))).bind (fun one =>
            (decoderOf ty (firstOf ty z ++ one)).bind (fun v => (elemsOut g x.auto con v.2 (firstOf ty z ++ one)).map (fun e =>
              (info, nodes [(idName f.name, some (fileOf x.win (idJson info []))),
                (objName f.name, some (fileOf x.win (.obj (written (places c.2 info r (formPlaces ty z e.1 v.1)))))),
                (bslName f.name objWord, (codeFiles x.win z).1), (binName f.name objWord, (codeFiles x.win z).2),
                (elemName f.name, some (fileOf x.win e.2))])))))))
      | .error _ => none
    | _ => none))
  | _ => none

/-! ### build -/

/-- the list `form` of the description: FormCore.py:43-49; `none`: it is no list of brace files -/
def formAt (j : JT) : Option (List File) := match entry j formWord with
  | none => some []
  | some (.arr l) => allOf (fun v => (valOf v).bind Object.rootOf) l
  | some _ => none

/-- `header.get('code_info_obj')` as a truth value -/
def hasCode (j : JT) : Bool := match entry j (infoKey objWord) with
  | none => false
  | some v => !falsy v

/-- `header.get('code_encoding_obj', 'utf-8-sig')`: FormCore.py:345, MetaObject/__init__.py:335.  Simplification: only the names extraction writes. -/
def encIn (j : JT) : Option EncName := match entry j (encKey objWord) with
  | none => some .utf8sig
  | some _ => encOf j objWord

/-- encode_code: MetaObject/__init__.py:331-341; `some none`: there is no code -/
noncomputable def codeBack (n : Text) (S : Text → Option Node) (j : JT) : Option (Option Code) :=
  if hasCode j then (encIn j).bind (fun e =>
    (readCode ⟨none, e, fileIn S (bslName n objWord), fileIn S (binName n objWord)⟩).map some)
  else some none

/-- encode_data: FormCore.py:315-325: the code is put into the form; `none` is an exception -/
def putCode (code : Option Code) (form : List File) : Option (List File) := match code with
  | some (.bytes _) => none
  | some (.text t) => put t
  | none => put []
where
  put (t : Text) : Option (List File) := match form with
    | [] => some []
    | d :: more => match getset d (formCodeIn t) with
      | .ok (_, d') => some (d' :: more)
      | .error .index => some (d :: more)
      | .error .notSupported => none

/-- encode_nested_includes: FormCore.py:273-294, FormElements4.py:97-119, FormElements27.py:99-117: the elements are put into the form -/
noncomputable def elemsIn (g : Lim) (auto : Bool) (con : Option Text) (ty : Text) (elem : Option Bytes) : List File → Option (List File)
  | (raw :: rows) :: more => (decoderOf ty ((raw :: rows) :: more)).bind (fun v => match v.2 with
    | none => some ((raw :: rows) :: more)
    | some .managed => ((elem.bind readFile).bind managedOf).bind (fun s =>
        (V8.Form.encodeForm g.depth con raw s).map (fun r => (r :: rows) :: more))
    | some (.ordinary _ _) => if auto then ((elem.bind readFile).bind autoOf).bind (fun s =>
        (V8.OAuto.formIn g.depth raw s).map (fun r => (r :: rows) :: more)) else ((elem.bind readFile).bind ordinaryOf).bind (fun s =>
        (V8.OForm.formIn g.depth raw s).map (fun r => (r :: rows) :: more)))
  | form => some form

/-- the module of an ordinary form: MetaObject/__init__.py:283-288; `none` is an exception: bytes are no text, 'bin' is no encoding -/
noncomputable def moduleBack (win : Bool) (enc : EncName) : Code → Option Bytes
  | .bytes _ => none
  | .text t => if enc = .bin then none else writeText win enc (comment t)

/-- the folder of an ordinary form -/
def formDir (form module : Bytes) : Text → Option Bytes :=
  fun n => if n = "form".toList then some form else if n = "module".toList then some module else none

/-- write_encode_object for `uuid.0`: FormCore.py:296-306, 336-347 -/
noncomputable def zeroBack (win : Bool) (ty : Text) (j : JT) (code : Option Code) (form : List File) : Option (Option Node) :=
  if ty = ['0'] then
    if hasCode j then match form with
      | [] => none
      | d :: _ => (encIn j).bind (fun e => (moduleBack win e (code.getD (.text []))).map (fun m => some (.dir (formDir (braceFile win d) m))))
    else some none
  else some (form.head?.map (fun d => .file (braceFile win d)))

/-- both JSON files are there: MetaDataObject/__init__.py:122-126 -/
def formHas (f : FCls) (S : Text → Option Node) : Bool := (fileIn S (idName f.name)).isSome && (fileIn S (objName f.name)).isSome

/-- encode: MetaDataObject/__init__.py:114-168, FormCore.py:248-263, 296-313: what is handed to the parent, and the files written, in this order -/
noncomputable def formBack (y : Bld) (g : Lim) (con : Option Text) (f : FCls) (S : Text → Option Node) : Option (Option Given × List (Text × Node)) :=
  match fileIn S (idName f.name), fileIn S (objName f.name) with
  | some bi, some bo => (readFile bo).bind (fun j => (treeAt j "header".toList).bind (fun h => (clsAt h f.site).bind (fun c =>
      (textAt j typeWord).bind (fun ty => (formAt j).bind (fun form => (codeBack f.name S j).bind (fun code =>
        (if ty = ['0'] then some form else putCode code form).bind (fun form1 =>
          (elemsIn g y.auto con ty (fileIn S (elemName f.name)) form1).bind (fun form2 =>
            (buildVal y c.1 [] ⟨bi, bo⟩).bind (fun r => (Object.rootOf r.2.2).bind (fun d => (zeroBack y.win ty j code form2).map (fun z =>
              (some ⟨r.1, r.2.1, .str r.1⟩,
                written [(r.1, some (.file (braceFile y.win d))), (dot r.1 ['0'], z),
                  (dot r.1 ['1'], (form2[1]?).map (fun d => Node.file (braceFile y.win d)))]))))))))))))
  | _, _ => some (none, [])

/-- the names of the files of a form in the container -/
def formNames (u : Text) : List Text := [u, dot u ['0'], dot u ['1']]

/-- the classes: /repo/src/v8unpack/MetaDataObject/*Form.py -/
def forms : List FCls :=
  ["AccumulationRegisterForm", "CalculationRegisterForm", "CatalogForm", "ChartOfCalculationTypesForm", "CommonForm", "DocumentForm",
   "DocumentJournalForm", "EnumForm", "ExchangePlanForm", "FilterCriterionForm", "InformationRegisterForm", "SettingsStorageForm"].map
      (fun n => ⟨n.toList, .form1⟩) ++
  ["AccountingRegisterForm", "BusinessProcessForm", "ChartOfAccountsForm", "ChartOfCharacteristicTypeForm", "ExternalDataSourceCubeForm",
   "ExternalDataSourceTableForm", "TaskForm"].map (fun n => ⟨n.toList, .form0⟩) ++
  ["Form", "ReportForm"].map (fun n => ⟨n.toList, .form⟩)

end V8.FormObj
