import Verif.Base64
import Verif.Brace
/-
Model of the files embedded into objects as base64 text: pictures, templates, help pages, the splash screen.
/repo/src/v8unpack/MetaObject/__init__.py:390-452, /repo/src/v8unpack/MetaObject/Configuration.py:142-171,
/repo/src/v8unpack/MetaDataObject/CommonPicture.py, /repo/src/v8unpack/MetaDataObject/Template.py:97-132, 198-224.

The text of a stored file and the tree it is parsed to are connected by parameters (`parse`, `ser`), which Verif/Brace.lean models.
-/
namespace V8.Embed
open V8.Brace V8.B64

/-! ### values inside a tree -/

/-- `v[i][j]...`; `none` is IndexError or TypeError -/
def getP : List Nat → Val → Option Val
  | [], v => some v
  | i :: p, .list l => match l[i]? with
    | some w => getP p w
    | none => none
  | _ :: _, _ => none

/-- `v[i][j]... = x` -/
def setP : List Nat → Val → Val → Val
  | [], x, _ => x
  | i :: p, x, .list l => match l[i]? with
    | some w => .list (l.set i (setP p x w))
    | none => .list l
  | _ :: _, _, v => v

/-- Python truth -/
def truthy : Val → Bool
  | .none => false
  | .str s => decide (s ≠ [])
  | .list l => decide (l ≠ [])

/-- the condition `v and v[i] and v[i][j] ...`: the last value if all of them are true, `.ok none` if one is not, `.error` for an exception
of an index.  (Indexing a string gives one character, which is no base64 text, so that the next step fails as well: also `.error`.) -/
def walk : List Nat → Val → Except Unit (Option Val)
  | [], v => if truthy v then .ok (some v) else .ok none
  | i :: p, v => if truthy v then match v with
      | .list l => match l[i]? with
        | some w => walk p w
        | none => .error ()
      | _ => .error ()
    else .ok none

/-! ### one text -/

def pre2 : Text := "##base64:".toList
def pre1 : Text := "#base64:".toList
def preD : Text := "#data:".toList

/-- _extract_b64_data: MetaObject/__init__.py:412-424: the data and what is left in the tree; `none` is an exception -/
def extractTok (t : Text) : Option (Bytes × Text) :=
  if pre2.isPrefixOf t then (decode (t.drop 9)).map (fun b => (b, pre2))
  else if pre1.isPrefixOf t then (decode (t.drop 8)).map (fun b => (b, pre1))
  else if preD.isPrefixOf t then (decode (t.drop 6)).map (fun b => (b, preD))
  else none

/-- `... += b64encode(bin_data).decode()`: MetaObject/__init__.py:442, Configuration.py:167, CommonPicture.py:38 -/
def buildTok (rest : Text) (b : Bytes) : Text := rest ++ encode b

/-- a token taken out of a tree: the data, and the tree with what is left; `none` is an exception -/
def takeOut (path : List Nat) (v tok : Val) : Option (Bytes × Val) :=
  match tok with
  | .str t => (extractTok t).map (fun (b, rest) => (b, setP path (.str rest) v))
  | _ => none

/-- the data put back: `header[...] += b64encode(bin_data)`; `none` is an exception -/
def putBack (path : List Nat) (b : Bytes) (v : Val) : Option Val :=
  match getP path v with
  | some (.str rest) => some (setP path (.str (buildTok rest b)) v)
  | _ => none

/-! ### help pages and html templates: MetaObject/__init__.py:390-445 -/

/-- the sources of one page: the page, a verbatim copy, the tree in the description of the object -/
structure Html where
  html : Option Bytes
  bin : Option Bytes
  field : Option Val

/-- _decode_html_data: lines 390-410; `stored` is the file; the inner `none` of `parse` is an exception of the parser -/
def htmlOut (parse : Bytes → Option Val) (stored : Option Bytes) : Option Html :=
  match stored with
  | none => some ⟨none, none, none⟩
  | some raw =>
    if 1000000 < raw.length then some ⟨none, some raw, none⟩
    else match parse raw with
      | none => none
      | some v =>
        match getP [0, 3] v with
        | none => some ⟨none, none, some v⟩
        | some w => match walk [0] w with
          | .error _ => none
          | .ok none => some ⟨none, none, some v⟩
          | .ok (some t) => (takeOut [0, 3, 0] v t).map (fun (b, v') => ⟨some b, none, some v'⟩)

/-- `len(header[0]) > n` -/
def longer (n : Nat) (v : Val) : Bool := match getP [0] v with
  | some (.list l) => decide (n < l.length)
  | _ => false

/-- _encode_html_data: lines 426-445: the file that is built, `none` inside if there is none; the outer `none` is an exception -/
def htmlIn (ser : Val → Bytes) (src : Html) : Option (Option Bytes) :=
  match src.html, src.bin with
  | none, some raw => some (some raw)
  | data, _ => match src.field with
    | none => some none
    | some v =>
      if truthy v = false then some none
      else match data with
        | some b => if longer 2 v ∧ b ≠ [] then (putBack [0, 3, 0] b v).map (fun v' => some (ser v')) else some (some (ser v))
        | none => some (some (ser v))

/-! ### the splash screen: Configuration.py:142-171 -/

/-- _decode_images: lines 142-156 (one image): the image and the tree in the description; `none` is an exception -/
def imageOut (parse : Bytes → Option Val) (stored : Option Bytes) : Option (Option Bytes × Option Val) :=
  match stored with
  | none => some (none, none)
  | some raw => match parse raw with
    | none => none
    | some v => match getP [0, 2] v with
      | none => some (none, some v)
      | some w => match walk [0, 0] w with
        | .error _ => none
        | .ok none => some (none, some v)
        | .ok (some t) => (takeOut [0, 2, 0, 0] v t).map (fun (b, v') => (some b, some v'))

/-- _encode_images: lines 158-171 (one image) -/
def imageIn (ser : Val → Bytes) (image : Option Bytes) (field : Option Val) : Option (Option Bytes) :=
  match field with
  | none => some none
  | some v =>
    if truthy v = false then some none
    else match image with
      | some b => if longer 1 v ∧ b ≠ [] then (putBack [0, 2, 0, 0] b v).map (fun v' => some (ser v')) else some (some (ser v))
      | none => some (some (ser v))

/-! ### common pictures: CommonPicture.py:16-43 -/

/-- decode_object: lines 16-31 -/
def pictureOut (parse : Bytes → Option Val) (stored : Option Bytes) : Option (Option Bytes × Option Val) :=
  match stored with
  | none => some (none, none)
  | some raw => match parse raw with
    | none => none
    | some v => match getP [0, 2] v with
      | none => none
      | some w => match walk [0, 0] w with
        | .error _ => none
        | .ok none => some (none, some v)
        | .ok (some t) => (takeOut [0, 2, 0, 0] v t).map (fun (b, v') => (some b, some v'))

/-- encode_object: lines 33-43: without the picture file nothing is written -/
def pictureIn (ser : Val → Bytes) (picture : Option Bytes) (field : Option Val) : Option (Option Bytes) :=
  match picture with
  | none => some none
  | some b => match field with
    | none => none
    | some v => (putBack [0, 2, 0, 0] b v).map (fun v' => some (ser v'))

/-! ### binary templates: Template.py:109-134, 198-224 -/

/-- how the parser takes the stored file: BigBase64 is raised for a file that is base64 text as a whole -/
inductive Parsed
  | big
  | tree (v : Val)
  | bad

/-- the sources of a binary template: the data (`.<extension>`), or a verbatim copy (`.c1b64`) -/
structure Tmpl where
  data : Option Bytes
  c1b64 : Option Bytes
deriving DecidableEq

/-- what decode_base64_data makes of `data[0][1]`: Template.py:121-134 -/
def tmplTake (w : Val) : Option Tmpl :=
  match walk [0] w with
  | .error _ => none
  | .ok none => some ⟨none, none⟩
  | .ok (some (.str t)) => (decode (t.drop 8)).map (fun b => ⟨some b, none⟩)
  | .ok (some _) => none

/-- decode_base64_data: Template.py:109-134; the outer `none` is an exception -/
def templateOut (parse : Bytes → Parsed) (stored : Option Bytes) : Option Tmpl :=
  match stored with
  | none => some ⟨none, none⟩
  | some raw => match parse raw with
    | .bad => none
    | .big => some ⟨none, some raw⟩
    | .tree v => match getP [0, 1] v with
      | none => none
      | some w => tmplTake w

/-- _get_b64_string: MetaObject/__init__.py:447-452 -/
def b64String (b : Bytes) : Text := if b = [] then pre2 else pre1 ++ encode b

/-- encode_base64_data, _encode_bin_data: Template.py:198-224 -/
def templateIn (ser : Val → Bytes) (src : Tmpl) : Option Bytes :=
  match src.data with
  | some b => some (ser (.list [.list [.str ['1'], .list [.str (b64String b)]]]))
  | none => src.c1b64

end V8.Embed
