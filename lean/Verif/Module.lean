import Verif.Encoding
import Verif.Brace
/-
Model of the treatment of module code:
/repo/src/v8unpack/MetaObject/__init__.py:20-21, 262-364 (directives, read_raw_code, write_raw_code, decode_code,
write_decode_code, encode_code, write_encode_code), of the code of forms, /repo/src/v8unpack/MetaDataObject/Form/FormCore.py:18-19,
94-150, 315-325, and of /repo/src/v8unpack/helper.py:62-99, 162-163, 174-175 (txt_read, txt_write, str_encode, str_decode).
-/
namespace V8.Module
open V8.Enc V8.Brace

/-! ### directives -/

/-- what is put before a directive -/
def marker : Text := "// v8unpack ".toList

/-- the directives of the pattern of MetaObject/__init__.py:20 -/
def directives : List Text :=
  ["#Область".toList, "#КонецОбласти".toList, "&НаСервере".toList, "&НаКлиенте".toList]

/-- the text begins with one of the directives -/
def atDirective (t : Text) : Bool := directives.any (fun d => Str.starts d t)

/-- the text begins with the marker and one of the characters `#`, `|`, `&`: MetaObject/__init__.py:21 -/
def atMarked (t : Text) : Bool :=
  Str.starts marker t && (match (t.drop marker.length) with | c :: _ => c = '#' || c = '|' || c = '&' | [] => false)

/-- `directive_1c_uncomment.sub('\g<n>// v8unpack \g<d>', code)` (write_raw_code, line 287): the directives are commented out.  A
directive contains no line feed, so going on right behind the line feed gives the same as going on behind the directive. -/
def comment : Text → Text
  | [] => []
  | c :: t => if c = '\n' ∧ atDirective t then '\n' :: (marker ++ comment t) else c :: comment t

/-- `directive_1c_comment.sub('\g<n>\g<d>', code)` (read_raw_code, line 280): the marker is taken away -/
def uncomment : Text → Text
  | [] => []
  | c :: t => if c = '\n' ∧ atMarked t then '\n' :: uncomment (t.drop marker.length) else c :: uncomment t
termination_by t => t.length
decreasing_by all_goals simp; try omega

/-! ### quotes -/

/-- str_encode: helper.py:162-163 -/
def strEncode (s : Text) : Text := '"' :: s ++ ['"']

/-- str_decode: helper.py:174-175, `data[1:-1]` -/
def strDecode (t : Text) : Text := (t.drop 1).take (t.length - 2)

/-- `double_quotes.sub('"', code)`: FormCore.py:18, 106: non-overlapping pairs from the left -/
def undouble : Text → Text
  | '"' :: '"' :: t => '"' :: undouble t
  | c :: t => c :: undouble t
  | [] => []

/-- `quotes.sub('""', code)`: FormCore.py:19, 320 -/
def double (s : Text) : Text := s.flatMap (fun c => if c = '"' then ['"', '"'] else [c])

/-- the code as it is taken out of a form file: FormCore.py:104-107 -/
def formCodeOut (tok : Text) : Text := undouble (strDecode tok)

/-- the code as it is put back: FormCore.py:319-322 -/
def formCodeIn (code : Text) : Text := strEncode (double code)

/-! ### getset_form_code -/

/-- get_last_level_array: FormCore.py:350-356; `none` is the IndexError of an empty list -/
def lastLevel (l : List Val) : Option (List Val) :=
  match _h : l.getLast? with
  | none => none
  | some (.list r) => lastLevel r
  | some _ => some l
termination_by sizeOf l
decreasing_by
  have := List.sizeOf_lt_of_mem (List.mem_of_getLast? _h)
  simp only [Val.list.sizeOf_spec] at this
  omega

/-- assignment into the list get_last_level_array returned: seen in the whole form -/
def setLastLevel (l new : List Val) : List Val :=
  match _h : l.getLast? with
  | some (.list r) => l.dropLast ++ [.list (setLastLevel r new)]
  | _ => new
termination_by sizeOf l
decreasing_by
  have := List.sizeOf_lt_of_mem (List.mem_of_getLast? _h)
  simp only [Val.list.sizeOf_spec] at this
  omega

/-- what getset_form_code can raise -/
inductive GErr where
  | notSupported   -- the ExtException of lines 120-124, 141-145
  | index          -- IndexError
deriving DecidableEq, Repr

/-- the value is there and one of these texts -/
def tokIn (v : Option Val) (ss : List Text) : Bool := match v with
  | some (.str t) => ss.contains t
  | _ => false

/-- `l[-k]` for 1 ≤ k -/
def fromEnd (l : List Val) (k : Nat) : Option Val := if k ≤ l.length then l[l.length - k]? else none

/-- a root as a list again (the roots of a form are lists) -/
def unroot : Val → List Val
  | .list l => l
  | _ => []

/-- getset_form_code: FormCore.py:112-150, with a `new_value` (both callers give one): the code found and the form after the call.
A form is the list of the roots of the form file. -/
def getset (form : List (List Val)) (new : Text) : Except GErr (Text × List (List Val)) :=
  match form with
  | [] => .error .index
  | root :: roots =>
    if 2 < root.length ∧ tokIn root[0]? [['4'], ['3'], ['2']] then
      match (root[2]? : Option Val) with
      | some (.str code) => .ok (code, root.set 2 (.str new) :: roots)
      | _ => .error .notSupported
    else
      match lastLevel (form.map Val.list) with
      | none => .error .index
      | some last =>
        if root.length < 10 ∧ tokIn last[0]? [['4', '9'], ['4']] then .ok ([], form)
        else if 10 < last.length ∧ tokIn last[0]? [['2', '2'], ['1']] ∧
            tokIn (fromEnd last 1) [['0']] ∧
            tokIn (fromEnd last 2) [['0']] then
          match fromEnd last 8 with
          | some (.str code) =>
            .ok (code, (setLastLevel (form.map Val.list) (last.set (last.length - 8) (.str new))).map unroot)
          | _ => .error .notSupported
        else .ok ([], form)

/-! ### module files -/

/-- the encodings recorded beside a module -/
inductive EncName where
  | utf8 | utf8sig | utf16 | utf32 | cp1251 | bin
deriving DecidableEq, Repr

/-- what read_raw_code returns as code -/
inductive Code where
  | text (t : Text)
  | bytes (b : Bytes)
deriving DecidableEq, Repr

/-- detect_by_bom(path, 'utf-8'): helper.py:300-314 -/
def bomName (b : Bytes) : EncName := match detectByBom b with
  | some .utf8sig => .utf8sig
  | some .utf32 => .utf32
  | some .utf16 => .utf16
  | none => .utf8

/-- read_raw_code: MetaObject/__init__.py:262-281; `none` is a file that does not exist -/
def readRaw (uncommenting : Bool) (file : Option Bytes) : Option Code × EncName :=
  let un := fun t : Text => if uncommenting then uncomment t else t
  match file with
  | none => (none, .utf8)
  | some b => match utf8Text b with
    | some t => (some (.text (un (universal t))), bomName b)
    | none => match cpText b with
      | some t => (some (.text (un (universal t))), .cp1251)
      | none => (some (.bytes b), .bin)

/-- `open(path, 'w', encoding=...).write(text)`; `none` is the UnicodeEncodeError.  Only the encodings that readRaw records for a
module (theorem readRaw_enc) are modelled; UTF-16 and UTF-32 are given the same result as an error. -/
noncomputable def writeText (win : Bool) (enc : EncName) (t : Text) : Option Bytes := match enc with
  | .utf8 => some (Enc.utf8 (osWrite win t))
  | .utf8sig => some (utf8Sig (osWrite win t))
  | .cp1251 => cpBytes (osWrite win t)
  | .utf16 => none
  | .utf32 => none
  | .bin => none

/-- a module in an unpacked configuration: MetaObject/__init__.py:294-319 -/
inductive Stored where
  | absent
  | file (b : Bytes)                                               -- `uuid.n` is a file
  | dir (info : List (List Val)) (text image bin : Option Bytes)   -- `uuid.n` is a folder with `info` and these files

/-- a module in the sources: `code_info_*` (`none`: the entry is missing), `code_encoding_*`, the `.bsl` file and the binary file -/
structure Src where
  info : Option (Option (List (List Val)))   -- `some none` stands for 'file'
  enc : EncName
  bsl : Option Bytes
  blob : Option Bytes

/-- write_decode_code: MetaObject/__init__.py:322-329: the `.bsl` file and the binary file -/
noncomputable def writeDecode (win : Bool) (code : Option Code) (enc : EncName) : Option Bytes × Option Bytes :=
  match code with
  | none => (none, none)
  | some (.text t) => if t = [] then (none, none) else (if enc = .bin then (none, none) else (writeText win .utf8 t, none))
  | some (.bytes b) => if b = [] then (none, none) else (none, some b)

/-- decode_code and write_decode_code for one module: MetaObject/__init__.py:290-329.  The branch of lines 303-315 is entered on
FileNotFoundError only, which read_raw_code never raises for `text` (lines 267-268). -/
noncomputable def extractModule (win cd : Bool) (st : Stored) : Src := match st with
  | .absent => ⟨none, .utf8, none, none⟩
  | .file b => let r := readRaw cd (some b)
    let w := writeDecode win r.1 r.2
    ⟨some none, r.2, w.1, w.2⟩
  | .dir info text _ _ => let r := readRaw cd text
    let w := writeDecode win r.1 r.2
    ⟨some (some info), r.2, w.1, w.2⟩

/-- encode_code: MetaObject/__init__.py:331-341; a missing file is the empty text.  `none` is the UnicodeDecodeError of the source. -/
def readCode (src : Src) : Option Code :=
  if src.enc = .bin then some (match src.blob with | some b => .bytes b | none => .text [])
  else match src.bsl with
    | none => some (.text [])
    | some b => (utf8SigText b).map (fun t => .text (universal t))

/-- write_raw_code or bin_write: MetaObject/__init__.py:283-288, 348-364 (bin_write of a text is a TypeError) -/
noncomputable def writeCode (win cd : Bool) (enc : EncName) (code : Code) : Option Bytes := match code with
  | .bytes b => if enc = .bin then some b else none
  | .text t => if enc = .bin then none else writeText win enc (if cd then comment t else t)

/-- encode_code and write_encode_code for one module: MetaObject/__init__.py:331-364 -/
noncomputable def buildModule (win cd : Bool) (src : Src) : Option Stored := match src.info with
  | none => some .absent
  | some info => match readCode src with
    | none => none
    | some code => match writeCode win cd src.enc code, info with
      | none, _ => none
      | some b, none => some (.file b)
      | some b, some i => some (.dir i (some b) none none)

end V8.Module
