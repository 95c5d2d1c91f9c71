import Verif.Store
import Verif.Misc
/-
Model of the objects with files of their own that have no nested objects and do not fit into the table of Verif/Store.lean:
/repo/src/v8unpack/MetaDataObject/CommonPicture.py, /repo/src/v8unpack/MetaDataObject/Template.py,
/repo/src/v8unpack/MetaDataObject/CommonTemplate.py, /repo/src/v8unpack/MetaDataObject/CommonTemplate4.py,
/repo/src/v8unpack/MetaDataObject/WSReference.py, with /repo/src/v8unpack/MetaDataObject/__init__.py:24-61, 83-101, 114-187,
/repo/src/v8unpack/MetaDataObject/core/Simple.py.
-/
namespace V8.Leaf
open V8.Brace V8.Enc V8.JsonText V8.Header V8.Object V8.Embed V8.Store
open V8.Module (EncName bomName writeText)
open V8.Product (getAt setAt)

/-- the classes -/
inductive Leaf where
  | picture
  | template
  | commonTemplate
  | reference
deriving DecidableEq

/-- the name of the class, which is the name of the source files: MetaDataObject/__init__.py:19-20, 117, 202 -/
def Leaf.name : Leaf → Text
  | .picture => "CommonPicture".toList
  | .template => "Template".toList
  | .commonTemplate => "CommonTemplate".toList
  | .reference => "WSReference".toList

/-- a class without nested objects, with the header at `header_data[0][1]` and then `rest` -/
def plain (rest : List Nat) : Cls := { rest := rest, includes := false }

/-- `header_data[0][1][0]` as a text -/
def versionAt (root : Val) : Option Text := match getAt root [0, 1, 0] with
  | some (.str s) => some s
  | _ => none

/-- get_handler and get_decode_header: MetaDataObject/__init__.py:24-44, MetaObject/__init__.py:44-46, Template.py:67-69, 257-260,
CommonTemplate4.py:5-7, WSReference.py:10-12: the place of the header and the version that is recorded; `none`: there is no class for this
version.  `ver` is options['obj_version']. -/
def clsAt (ver : Text) (root : Val) : Leaf → Option (Cls × Text)
  | .picture => some (plain [1], ver)
  | .template => (versionAt root).bind (fun v => if v = ['2'] then some (plain [2], v) else none)
  | .commonTemplate => (versionAt root).bind (fun v => if v = ['4'] then some (plain [1], v) else none)
  | .reference => some (plain [2], ver)

/-- the place of the header of the class that handles the object -/
def placeAt (root : Val) (t : Leaf) : Option Cls := (clsAt [] root t).map (·.1)

/-! ### templates -/

/-- TmplType: Template.py:14-24 -/
inductive TType where
  | table | base64 | active_doc | html | text | geographic | scheme | design | graphic_scheme | extension
deriving DecidableEq

def TType.all : List TType := [.table, .base64, .active_doc, .html, .text, .geographic, .scheme, .design, .graphic_scheme, .extension]

/-- the values: Template.py:15-24 -/
def TType.code : TType → Text
  | .table => ['0']
  | .base64 => ['1']
  | .active_doc => ['2']
  | .html => ['3']
  | .text => ['4']
  | .geographic => ['5']
  | .scheme => ['6']
  | .design => ['7']
  | .graphic_scheme => ['8']
  | .extension => ['9']

/-- the names: Template.py:15-24 -/
def TType.name : TType → Text
  | .table => "table".toList
  | .base64 => "base64".toList
  | .active_doc => "active_doc".toList
  | .html => "html".toList
  | .text => "text".toList
  | .geographic => "geographic".toList
  | .scheme => "scheme".toList
  | .design => "design".toList
  | .graphic_scheme => "graphic_scheme".toList
  | .extension => "extension".toList

/-- `TmplType(value)`; `none` is ValueError -/
def TType.ofCode (s : Text) : Option TType := TType.all.find? (fun t => decide (t.code = s))

/-- `TmplType[name]`; `none` is KeyError -/
def TType.ofName (s : Text) : Option TType := TType.all.find? (fun t => decide (t.name = s))

/-- get_template_type: Template.py:63-65, CommonTemplate4.py:9-11 -/
def typeAt (t : Leaf) (root : Val) : Option TType :=
  match getAt root (match t with | .commonTemplate => [0, 1, 2] | _ => [0, 1, 1]) with
  | some (.str s) => TType.ofCode s
  | _ => none

/-- brace_file_read with BigBase64 told apart: helper.py:16-31; see braceRead -/
noncomputable def parsedOf (b : Bytes) : Parsed :=
  let conv := fun r : Except BErr (List (List Val)) => match r with
    | .ok d => Parsed.tree (rootVal d)
    | .error .bigBase64 => .big
    | .error _ => .bad
  match utf8SigText b with
  | some t => conv (decodeFile (universal t))
  | none => match cpText b with
    | some t => conv (decodeFile (universal t))
    | none => .bad

/-- txt_read_detect_encoding and txt_write with the encoding found: helper.py:76-99, 300-314: the bytes that are written for the bytes that were
read; `none` is UnicodeDecodeError.  Left out: files that begin with a mark of UTF-16 or UTF-32, also `none`. -/
noncomputable def retext (win : Bool) (b : Bytes) : Option Bytes := match bomName b with
  | .utf8 => (utf8Text b).bind (fun t => writeText win .utf8 (universal t))
  | .utf8sig => (utf8SigText b).bind (fun t => writeText win .utf8sig (universal t))
  | _ => none

/-- the files that are copied as they are, with the extension they get: Template.py:77-97, 104-105; `none`: another kind of template -/
def TType.copied : TType → Option Text
  | .table => some "mxl".toList
  | .active_doc => some "bin".toList
  | .geographic => some "bin".toList
  | .scheme => some "bin".toList
  | .design => some "bin".toList
  | .graphic_scheme => some "bin".toList
  | _ => none

/-! ### extraction -/

/-- what a class adds to the two JSON files: entries before and after the entries every object has, and files -/
structure Parts where
  front : List (Place JT)
  extra : List (Place JT)
  files : List (Place Node)

/-- a picture: CommonPicture.py:16-31 -/
noncomputable def pictureParts (x : Ext) (F : Text → Option Node) (info : Info) : Option Parts :=
  (fileAt F (dot info.uuid ['0'])).bind (fun f => (pictureOut tree f).map (fun p =>
    ⟨[], [("info".toList, p.2.map jsonOf)],
      nodes [(dot Leaf.picture.name (V8.Misc.extension x.alnum info.comment), p.1)]⟩))

/-- the data of a template: Template.py:77-139 -/
noncomputable def dataParts (x : Ext) (n : Text) (F : Text → Option Node) (info : Info) (ty : TType) :
    Option (List (Place JT) × List (Place Bytes)) :=
  (fileAt F (dot info.uuid ['0'])).bind (fun f =>
    match ty with
    | .text => match f with
      | none => some ([], [(dot n "txt".toList, none)])
      | some b => (retext x.win b).map (fun b' => ([], [(dot n "txt".toList, some b')]))
    | .html => (htmlOut tree f).map (fun h =>
        ([("html".toList, h.field.map jsonOf)], [(dot n "html".toList, h.html), (dot n "bin".toList, h.bin)]))
    | .base64 => (templateOut parsedOf f).map (fun p =>
        ([], [(dot n "c1b64".toList, p.c1b64), (dot n (V8.Misc.extension x.alnum info.comment), p.data)]))
    | .extension => (templateOut parsedOf f).map (fun p =>
        ([], [(dot n "c1b64".toList, p.c1b64), (dot n (V8.Misc.extension x.alnum info.comment), p.data)]))
    | ty => some ([], [(dot n (ty.copied.getD []), f)]))

/-- a template: Template.py:35-53, 141-149 -/
noncomputable def templateParts (x : Ext) (t : Leaf) (F : Text → Option Node) (info : Info) (root : Val) : Option Parts :=
  (typeAt t root).bind (fun ty => (dataParts x t.name F info ty).map (fun p =>
    ⟨[("type".toList, some (.str ty.name))], p.1, nodes p.2⟩))

/-- the folder a web service reference is copied to: WSReference.py:18, 26 -/
def copyName (name : Text) : Text := name ++ '/' :: Leaf.reference.name

/-- a folder; anything else is passed over: WSReference.py:19-20, 27-28 -/
def dirOnly : Option Node → Option Node
  | some (.dir f) => some (.dir f)
  | _ => none

/-- a web service reference: WSReference.py:14-21.  Simplification: the name contains no separator. -/
def referenceParts (F : Text → Option Node) (info : Info) : Parts :=
  ⟨[], [], [(copyName info.name, dirOnly (F (dot info.uuid ['0'])))]⟩

noncomputable def partsOut (x : Ext) (t : Leaf) (F : Text → Option Node) (info : Info) (root : Val) : Option Parts := match t with
  | .picture => pictureParts x F info
  | .template => templateParts x t F info root
  | .commonTemplate => templateParts x t F info root
  | .reference => some (referenceParts F info)

/-- name, name2 and comment: helper.py:123-137 -/
def names (info : Info) : List (Place JT) :=
  [("name".toList, some (.str info.name)), ("name2".toList, some (.obj (info.name2.map (fun p => (p.1, .str p.2))))),
    ("comment".toList, some (.str info.comment))]

/-- the description, in the order in which its entries are made: MetaObject/__init__.py:53-56, Template.py:141-149,
MetaDataObject/__init__.py:88 -/
def places (t : Leaf) (ver : Text) (p : Parts) (info : Info) (header : Val) : List (Place JT) :=
  (match t with
    | .template => p.front ++ ("header".toList, some (jsonOf header)) :: names info
    | .commonTemplate => p.front ++ ("header".toList, some (jsonOf header)) :: names info
    | _ => p.front ++ names info ++ [("header".toList, some (jsonOf header))]) ++ p.extra ++ [("obj_version".toList, some (.str ver))]

/-- decode: MetaDataObject/__init__.py:47-61, 83-93: what is recorded and the files of the sources -/
noncomputable def leafOut (x : Ext) (ver : Text) (t : Leaf) (F : Text → Option Node) (u : Text) : Option (Info × List (Place Node)) :=
  match F u with
  | some (.file b) => (braceRead b).bind (fun d => (clsAt ver (rootVal d) t).bind (fun c => match getAt (rootVal d) c.1.path with
    | some (.list h) => match decodeHeader x.valid x.p true h with
      | .ok (info, h') => (setAt (rootVal d) c.1.path (.list h')).bind (fun r => (partsOut x t F info (rootVal d)).map (fun p =>
          (info, p.files ++ nodes [(idName t.name, some (fileOf x.win (idJson info []))),
            (objName t.name, some (fileOf x.win (.obj (written (places t c.2 p info r)))))])))
      | .error _ => none
    | _ => none))
  | _ => none

/-! ### build -/

/-- `helper.get_extension_from_comment(self.header['comment'])`: CommonPicture.py:36, Template.py:202 -/
def extIn (x : Ext) (j : JT) : Option Text := (textAt j "comment".toList).map (V8.Misc.extension x.alnum)

/-- an entry of the description as a tree; `none`: it cannot be written as one -/
def fieldIn (j : JT) (k : Text) : Option (Option Val) := match entry j k with
  | none => some none
  | some v => (valOf v).map some

/-- a picture: CommonPicture.py:33-43 -/
noncomputable def pictureBack (x : Ext) (win : Bool) (S : Text → Option Node) (j : JT) (u : Text) : Option (List (Place Node)) :=
  (extIn x j).bind (fun e => (fieldIn j "info".toList).bind (fun v =>
    (pictureIn (ser win) (fileIn S (dot Leaf.picture.name e)) v).map (fun f => [(dot u ['0'], f.map Node.file)])))

/-- a text file: Template.py:187-194 -/
noncomputable def textBack (win : Bool) (S : Text → Option Node) (n : Text) : Option (Option Bytes) := match fileIn S (dot n "txt".toList) with
  | none => some none
  | some b => (retext win b).map some

/-- the data of a template: Template.py:151-224 -/
noncomputable def dataBack (x : Ext) (win : Bool) (n : Text) (S : Text → Option Node) (j : JT) (ty : TType) : Option (Option Bytes) :=
  match ty with
  | .text => textBack win S n
  | .html => (fieldIn j "html".toList).bind (fun v => htmlIn (ser win) ⟨fileIn S (dot n "html".toList), fileIn S (dot n "bin".toList), v⟩)
  | .base64 => (extIn x j).map (fun e => templateIn (ser win) ⟨fileIn S (dot n e), fileIn S (dot n "c1b64".toList)⟩)
  | .extension => (extIn x j).map (fun e => templateIn (ser win) ⟨fileIn S (dot n e), fileIn S (dot n "c1b64".toList)⟩)
  | ty => match fileIn S (dot n (ty.copied.getD [])) with
    | some b => some (some b)
    | none => textBack win S n

noncomputable def templateBack (x : Ext) (win : Bool) (t : Leaf) (S : Text → Option Node) (j : JT) (u : Text) : Option (List (Place Node)) :=
  (textAt j "type".toList).bind (fun s => (TType.ofName s).bind (fun ty =>
    (dataBack x win t.name S j ty).map (fun f => [(dot u ['0'], f.map Node.file)])))

/-- a web service reference: WSReference.py:23-32 -/
def referenceBack (S : Text → Option Node) (name u : Text) : List (Place Node) := [(dot u ['0'], dirOnly (S (copyName name)))]

noncomputable def partsIn (x : Ext) (win : Bool) (t : Leaf) (S : Text → Option Node) (j : JT) (u name : Text) : Option (List (Place Node)) := match t with
  | .picture => pictureBack x win S j u
  | .template => templateBack x win t S j u
  | .commonTemplate => templateBack x win t S j u
  | .reference => some (referenceBack S name u)

/-- both JSON files are there: MetaDataObject/__init__.py:122-126 -/
def leafHas (t : Leaf) (S : Text → Option Node) : Bool := (fileIn S (idName t.name)).isSome && (fileIn S (objName t.name)).isSome

/-- encode: MetaDataObject/__init__.py:114-168, 178-187: what is handed to the parent, and the files written, in this order -/
noncomputable def leafBack (x : Ext) (y : Bld) (t : Leaf) (S : Text → Option Node) : Option (Option Given × List (Text × Node)) :=
  match fileIn S (idName t.name), fileIn S (objName t.name) with
  | some bi, some bo => (readFile bo).bind (fun j => (treeAt j "header".toList).bind (fun h => (placeAt h t).bind (fun c =>
      (buildVal y c [] ⟨bi, bo⟩).bind (fun r => (rootOf r.2.2).bind (fun d =>
        (partsIn x y.win t S j r.1 r.2.1).map (fun ps =>
          (some ⟨r.1, r.2.1, .str r.1⟩, written (ps ++ [(r.1, some (.file (braceFile y.win d)))]))))))))
  | _, _ => some (none, [])

/-- the names of the files of an object in the container -/
def leafNames (u : Text) : List Text := [dot u ['0'], u]

end V8.Leaf
