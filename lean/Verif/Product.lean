import Verif.Header
/-
Model of what the options of a build change in the root object: the product version and the mark `ver:` in comments, the compatibility
mode, the prefix of an extension.
/repo/src/v8unpack/MetaObject/__init__.py:366-388, /repo/src/v8unpack/MetaObject/Configuration.py:38-85, 102-116,
/repo/src/v8unpack/MetaObject/ConfigurationExtension.py:20-82, /repo/src/v8unpack/MetaObject/ExternalDataProcessor.py:48-74,
/repo/src/v8unpack/MetaDataObject/DataProcessor.py:45-47, /repo/src/v8unpack/decoder.py:79-85, 175-194.

`self.header['header']`, the list of roots of the header file, is one `Val.list` here.  An exception is `none`; an index into a string counts
as an exception.
-/
namespace V8.Product
open V8.Module V8.Brace V8.Enc

/-- `v[i][j]...` -/
def getAt : Val → List Nat → Option Val
  | v, [] => some v
  | .list l, i :: p => match l[i]? with
    | some x => getAt x p
    | none => none
  | _, _ :: _ => none

/-- `v[i][j]... = w`: the value after the assignment -/
def setAt : Val → List Nat → Val → Option Val
  | _, [], w => some w
  | .list l, i :: p, w => match l[i]? with
    | some x => (setAt x p w).map (fun y => .list (l.set i y))
    | none => none
  | _, _ :: _, _ => none

/-- the options a build looks at.  `productVersion` is '' when there is none; `product` is set by build_all (v8unpack.py:130). -/
structure Options where
  productVersion : Text
  product : Text
  version : Option Text
  pfx : Option Text

/-! ### the comment -/

/-- 'ver:' -/
def mark : Text := ['v', 'e', 'r', ':']

/-- set_product_comment: MetaObject/__init__.py:369-381.  `hp` is the place of the list get_decode_header returns; every caller leaves the
parameter `product` at None. -/
def setComment (o : Options) (hp : List Nat) (productVersion : Text) (h : Val) : Option Val :=
  if productVersion = [] then some h
  else match getAt h (hp ++ [4]) with
    | some (.str tok) =>
      match Str.breakOn mark (strDecode tok) with
      | (a, some _) =>
        if o.productVersion = [] then some h
        else setAt h (hp ++ [4]) (.str (strEncode (a ++ ['v', 'e', 'r'] ++ ':' :: productVersion)))
      | (_, none) => some h
    | _ => none

/-! ### the version of an extension -/

/-- the place of the version: Configuration.py:85, ConfigurationExtension.py:33 -/
def versionPath : List Nat := [0, 3, 1, 1, 15]
/-- get_decode_header of configurations and extensions: Configuration.py:76-78 -/
def rootHeader : List Nat := [0, 3, 1, 1, 1, 1]
/-- get_decode_header of external data processors and reports: ExternalDataProcessor.py:56-58 -/
def edpHeader : List Nat := [0, 3, 1, 1, 3, 1]
/-- get_decode_header of data processors of a configuration: DataProcessor.py:16-18 -/
def dpHeader : List Nat := [0, 1, 3, 1]

/-- set_product_version: Configuration.py:80-85 -/
def setVersion (o : Options) (h : Val) : Option Val :=
  let v := if o.product = [] then o.productVersion else o.product ++ '_' :: o.productVersion
  setAt h versionPath (.str (strEncode v))

/-- `f'{file_name}:{product_version}'`: MetaObject/__init__.py:387 -/
def productInfo (o : Options) (file : Text) : Text := file ++ ':' :: o.productVersion

/-- set_product_info of an extension: MetaObject/__init__.py:383-388 -/
def setInfoExt (o : Options) (file : Text) (h : Val) : Option Val :=
  (setVersion o h).bind (fun h => if file = [] then some h else setComment o rootHeader (productInfo o file) h)

/-- set_product_info of an external data processor, whose set_product_version does nothing: MetaObject/__init__.py:366-367, 383-388 -/
def setInfoEdp (o : Options) (file : Text) (h : Val) : Option Val :=
  if file = [] then some h else setComment o edpHeader (productInfo o file) h

/-- the comment of a data processor: DataProcessor.py:45-47 -/
def setInfoDp (o : Options) (h : Val) : Option Val := setComment o dpHeader o.productVersion h

/-- version.bin as extraction writes it: ConfigurationExtension.py:33, 54 -/
noncomputable def versionFile (win : Bool) (h : Val) : Option Bytes := match getAt h versionPath with
  | some (.str tok) => some (utf8 (osWrite win (strDecode tok)))
  | _ => none

/-- version.bin as the build reads it: decoder.py:186-190; a missing file gives no version -/
def readVersion (file : Option Bytes) : Option Text := match file with
  | none => some []
  | some b => (utf8Text b).map universal

/-! ### the compatibility mode -/

/-- the place of the compatibility mode in a configuration: Configuration.py:56, 109 -/
def compatConf : List Nat := [0, 3, 1, 1, 26]
/-- the place of the compatibility mode in an extension: ConfigurationExtension.py:35, 70 -/
def compatExt : List Nat := [0, 3, 1, 1, 43]
/-- the place of the prefix of an extension: ConfigurationExtension.py:79 -/
def prefixPath : List Nat := [0, 3, 1, 1, 42]

/-- the method `decode` of a configuration or an extension, as far as the compatibility mode goes: Configuration.py:55-59,
ConfigurationExtension.py:34-38: the recorded mode and the header -/
def decodeCompat (slot : List Nat) (version : Option Text) (h : Val) : Option (Val × Val) := match version with
  | none => (getAt h slot).map (fun v => (v, h))
  | some v => (setAt h slot (.str v)).map (fun h' => (.str v, h'))

/-- Decoder.decode calls the method `decode` of the root object without the option: decoder.py:85 -/
def extractCompat (slot : List Nat) (_o : Options) (h : Val) : Option (Val × Val) := decodeCompat slot none h

/-- the compatibility mode on build: Configuration.py:107-115, ConfigurationExtension.py:68-75.  `recorded` is `compatibility_version` of the
sources, `none` when the entry is missing. -/
def buildCompat (slot : List Nat) (o : Options) (recorded : Option Val) (h : Val) : Option Val := match o.version with
  | some v => setAt h slot (.str v)
  | none => match recorded with
    | some v => setAt h slot v
    | none => some h

/-- the option prefix: ConfigurationExtension.py:77-79 -/
def buildPrefix (o : Options) (h : Val) : Option Val := match o.pfx with
  | some p => setAt h prefixPath (.str (strEncode p))
  | none => some h

/-! ### an extension as a whole -/

/-- the sources of the root of an extension: header, recorded mode, version.bin -/
structure ExtSrc where
  header : Val
  compat : Option Val
  versionBin : Option Bytes

/-- the extraction of the root of an extension: ConfigurationExtension.py:20-57 -/
noncomputable def extractExt (win : Bool) (o : Options) (h : Val) : Option ExtSrc :=
  (versionFile win h).bind (fun b => (extractCompat compatExt o h).map (fun r => ⟨r.2, some r.1, some b⟩))

/-- the build of the root of an extension: decoder.py:186-190, ConfigurationExtension.py:61-79.  version.bin replaces the option. -/
def buildExt (o : Options) (file : Text) (s : ExtSrc) : Option Val :=
  match s.versionBin with
  | some b => match readVersion (some b) with
    | some v => let o' := { o with productVersion := v }
      ((setInfoExt o' file s.header).bind (buildCompat compatExt o' s.compat)).bind (buildPrefix o')
    | none => none
  | none => ((setInfoExt o file s.header).bind (buildCompat compatExt o s.compat)).bind (buildPrefix o)

end V8.Product
