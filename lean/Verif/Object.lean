import Verif.JsonText
import Verif.Product
import Verif.Nested
/-
Model of one metadata object from the bytes of its file in the container to the two JSON files of its sources and back:
/repo/src/v8unpack/helper.py:16-43 (brace_file_read, brace_file_write), /repo/src/v8unpack/json_container_decoder.py:372-376 (write_data),
/repo/src/v8unpack/MetaDataObject/__init__.py:47-187 (decode, decode_ids, write_decode_object, encode, encode_ids, write_encode_object),
/repo/src/v8unpack/MetaObject/__init__.py:45-62 (decode_header, encode_header), with the parts modelled elsewhere: the brace format (Brace),
text encodings (Encoding), JSON (JsonText), the common header (Header), the lists of nested objects (Nested).
Modules, forms, help pages and other files of the object are modelled elsewhere.
-/
namespace V8.Object
open V8.Brace V8.Enc V8.JsonText V8.Header V8.Nested
open V8.Product (getAt setAt)

/-- brace_file_write: helper.py:34-43 with json_container_decoder.py:372-376: the bytes of the file (the file is opened twice, the second
time with the encoding utf-8-sig; the first one leaves nothing behind) -/
noncomputable def braceFile (win : Bool) (d : List (List Val)) : Bytes := bom8 ++ utf8 (osWrite win (encRoot d))

/-- the parser as an option -/
def parsed (t : Text) : Option (List (List Val)) := (decodeFile (universal t)).toOption

/-- brace_file_read: helper.py:16-31; `none` is an exception.  Simplification: the whole file is decoded before it is parsed (Python
decodes it in portions while it parses, which matters only for files that have both an error in the braces and bytes that are no UTF-8). -/
noncomputable def braceRead (b : Bytes) : Option (List (List Val)) := match utf8SigText b with
  | some t => parsed t
  | none => (cpText b).bind parsed

/-- header_data as one value -/
def rootVal (d : List (List Val)) : Val := .list (d.map Val.list)

/-- the data encode_root_object can write: json_container_decoder.py:301-307 -/
def rootOf : Val → Option (List (List Val))
  | .list l => l.mapM (fun v => match v with
    | .list x => some x
    | _ => none)
  | _ => none

mutual
/-- brace data as JSON values -/
def jsonOf : Val → JT
  | .none => .null
  | .str s => .str s
  | .list l => .arr (jsonsOf l)
def jsonsOf : List Val → List JT
  | [] => []
  | v :: r => jsonOf v :: jsonsOf r
end

mutual
/-- JSON values as brace data; `none`: NotImplementedError of encode_object (json_container_decoder.py:361-362) -/
def valOf : JT → Option Val
  | .null => some .none
  | .str s => some (.str s)
  | .arr l => (valsOf l).map Val.list
  | _ => none
def valsOf : List JT → Option (List Val)
  | [] => some []
  | j :: r => (valOf j).bind (fun v => (valsOf r).map (fun l => v :: l))
end

/-- `d[k]` -/
def dget (d : List (Text × JT)) (k : Text) : Option JT := (d.find? (fun p => decide (p.1 = k))).map (·.2)

/-- `d[k]` of a JSON dict, as a text -/
def textAt : JT → Text → Option Text
  | .obj d, k => match dget d k with
    | some (.str s) => some s
    | _ => none
  | _, _ => none

/-- `d[k]` of a JSON dict, as brace data -/
def treeAt : JT → Text → Option Val
  | .obj d, k => (dget d k).bind valOf
  | _, _ => none

/-- the class of an object: the place of its header below `header_data[0][1]` (get_decode_header) and whether it has lists of nested
objects in `header_data[0]` (MetaDataObject/core/Container.py:13-16) or none (MetaDataObject/core/Simple.py:14-18) -/
structure Cls where
  rest : List Nat
  includes : Bool
  /-- the identifiers that go into the id file: their names there and their places in `header_data[0][1]`: DataProcessor.py:20-43 -/
  ids : List (Text × Nat) := []
  /-- the version of the product goes into the comment: DataProcessor.py:45-47 -/
  stamp : Bool := false
deriving DecidableEq

def Cls.path (c : Cls) : List Nat := 0 :: 1 :: c.rest

/-- the two JSON files: MetaDataObject/__init__.py:83-93 -/
structure Src where
  id : Bytes
  obj : Bytes

/-- the id file: MetaDataObject/__init__.py:72-76, 89, DataProcessor.py:20-28 -/
def idJson (info : Info) (ids : List (Text × Val)) : JT := .obj (("uuid".toList, .str info.uuid) :: ids.map (fun p => (p.1, jsonOf p.2)))

/-- what is left in the place of an identifier: DataProcessor.py:29-32 -/
def idNote (n : Text) : Text := n ++ " в файле id".toList

/-- `obj_version.startswith('803')`: DataProcessor.py:23, 37 -/
def v803 : Option Text → Bool
  | some s => "803".toList.isPrefixOf s
  | none => false

/-- the identifiers are taken out of `header_data[0][1]`: DataProcessor.py:24-32; `none` is IndexError.  Simplification: one identifier after the
other (in the code all are read first; the places are distinct). -/
def takeIds : List (Text × Nat) → List Val → Option (List (Text × Val) × List Val)
  | [], m => some ([], m)
  | (n, i) :: r, m => match m[i]? with
    | none => none
    | some v => (takeIds r (m.set i (.str (idNote n)))).map (fun q => ((n, v) :: q.1, q.2))

/-- decode_ids: DataProcessor.py:20-34: what goes into the id file, and the data -/
def hideIds (c : Cls) (ver : Option Text) (root : Val) : Option (List (Text × Val) × Val) :=
  if c.ids = [] ∨ v803 ver = false then some ([], root)
  else match getAt root [0, 1] with
    | some (.list m) => (takeIds c.ids m).bind (fun q => (setAt root [0, 1] (.list q.2)).map (fun r => (q.1, r)))
    | _ => none

/-- the identifiers are put back into `header_data[0][1]`: DataProcessor.py:38-42 -/
def putIds (j : JT) : List (Text × Nat) → List Val → Option (List Val)
  | [], m => some m
  | (n, i) :: r, m => match treeAt j n, m[i]? with
    | some v, some _ => putIds j r (m.set i v)
    | _, _ => none

/-- encode_ids: DataProcessor.py:35-43 -/
def showIds (c : Cls) (ver : Option Text) (j : JT) (root : Val) : Option Val :=
  if c.ids = [] ∨ v803 ver = false then some root
  else match getAt root [0, 1] with
    | some (.list m) => (putIds j c.ids m).bind (fun m' => setAt root [0, 1] (.list m'))
    | _ => none

/-- `obj_version`; it is not known for objects kept inside others (MetaDataObject/core/IncludeSimple.py:22) -/
def verJson : Option Text → JT
  | some s => .str s
  | none => .null

/-- the description: helper.py:115-143, MetaObject/__init__.py:53-56, MetaDataObject/__init__.py:88-90; `extra` are the entries of the class -/
def objJson (ver : Option Text) (extra : List (Text × JT)) (info : Info) (tree : Val) : JT :=
  .obj ([("name".toList, .str info.name), ("name2".toList, .obj (info.name2.map (fun p => (p.1, .str p.2)))),
    ("comment".toList, .str info.comment), ("header".toList, jsonOf tree)] ++ extra ++ [("obj_version".toList, verJson ver)])

/-- settings of an extraction: `valid` is `uuid.UUID` without exception, `p` the option prefix, `win` the platform; `alnum` is the Unicode test
of one character of `str.isalnum` (used for the extension of embedded files, helper.py:321-328) -/
structure Ext where
  E : Env
  auto : Bool
  valid : Text → Bool
  p : Text
  win : Bool
  alnum : Char → Bool := Char.isAlphanum

/-- the lists of nested objects of a class: MetaObject/__init__.py:64-126 -/
def takeIncludes (x : Ext) (c : Cls) (root : Val) : Option (Val × List Obj) :=
  if c.includes then match getAt root [0] with
    | some (.list inc) => (decodeInclude x.E x.auto inc).bind (fun r => (setAt root [0] (.list r.1)).map (fun v => (v, r.2)))
    | _ => none
  else some (root, [])

/-- the part of decode from the raw data on: what is recorded, the nested objects found, the sources: MetaDataObject/__init__.py:54-61 and,
for objects kept inside others, MetaDataObject/core/IncludeSimple.py:20-27 -/
noncomputable def extractVal (x : Ext) (c : Cls) (ver : Option Text) (extra : List (Text × JT)) (root : Val) : Option (Info × List Obj × Src) :=
  match getAt root c.path with
  | some (.list h) => match decodeHeader x.valid x.p true h with
    | .ok (info, h') => (setAt root c.path (.list h')).bind (fun r1 => (takeIncludes x c r1).bind (fun r => (hideIds c ver r.1).map (fun q =>
        (info, r.2, ⟨fileOf x.win (idJson info q.1), fileOf x.win (objJson ver extra info q.2)⟩))))
    | .error _ => none
  | _ => none

/-- decode: MetaDataObject/__init__.py:47-61 without the other files of the object -/
noncomputable def extract (x : Ext) (c : Cls) (ver : Option Text) (extra : List (Text × JT)) (b : Bytes) : Option (Info × List Obj × Src) :=
  (braceRead b).bind (fun d => extractVal x c ver extra (rootVal d))

/-- settings of a build; `parent` is the parent_id, `ver` is options['obj_version'], `prod` is options['product_version'] ('' if there is none) -/
structure Bld where
  E : Env
  auto : Bool
  p : Text
  parent : Text
  win : Bool
  ver : Option Text := none
  prod : Text := []

/-- MetaDataObject/__init__.py:157-158 -/
def putIncludes (y : Bld) (c : Cls) (es : List Entry) (root : Val) : Option Val :=
  if c.includes then match getAt root [0] with
    | some (.list inc) => (buildInclude y.E false y.auto es inc).bind (fun r => setAt root [0] (.list r))
    | _ => none
  else some root

/-- the comment: DataProcessor.py:45-47, MetaObject/__init__.py:369-381 -/
def stampIn (y : Bld) (c : Cls) (root : Val) : Option Val :=
  if c.stamp then V8.Product.setComment ⟨y.prod, [], none, none⟩ c.path y.prod root else some root

/-- encode: MetaDataObject/__init__.py:114-168, 181: identifier, name and raw data -/
noncomputable def buildVal (y : Bld) (c : Cls) (es : List Entry) (s : Src) : Option (Text × Text × Val) :=
  (readFile s.id).bind (fun jid => (readFile s.obj).bind (fun j =>
    match textAt jid "uuid".toList, textAt j "name".toList, treeAt j "header".toList with
    | some u, some name, some root => (showIds c y.ver jid root).bind (fun r0 => (putIncludes y c es r0).bind (fun r1 => match getAt r1 c.path with
      | some (.list h) => (encodeHeader y.p y.parent ⟨u, name, [], []⟩ h).bind (fun h2 =>
          (setAt r1 c.path (.list h2)).bind (fun r2 => (stampIn y c r2).map (fun r3 => (u, name, r3))))
      | _ => none))
    | _, _, _ => none))

/-- encode: MetaDataObject/__init__.py:114-168, 178-187: the name and the bytes of the file that is written -/
noncomputable def build (y : Bld) (c : Cls) (es : List Entry) (s : Src) : Option (Text × Bytes) :=
  (buildVal y c es s).bind (fun r => (rootOf r.2.2).map (fun d => (r.1, braceFile y.win d)))

end V8.Object
