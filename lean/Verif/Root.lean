import Verif.Tree
import Verif.Misc
/-
Model of a whole product (configuration, extension, external data processor or report), from the container folder to the source folder and back:
/repo/src/v8unpack/MetaObject/Configuration.py, /repo/src/v8unpack/MetaObject/ConfigurationExtension.py,
/repo/src/v8unpack/MetaObject/ExternalDataProcessor.py, /repo/src/v8unpack/MetaObject/__init__.py:64-146, 222-228, 454-484,
/repo/src/v8unpack/decoder.py:59-92, 109-150, 175-194.

The parts that are modelled elsewhere: the choice of the class (Misc), the header (Header), the lists (Nested), modules, help page (Store), the
splash screen (Embed), version, comment, compatibility mode and prefix (Product), the nested objects (Tree).
Not here: `dummy.zip` (decoder.py:176-183, 205-207: two containers).
-/
namespace V8.Root
open V8.Brace V8.Enc V8.JsonText V8.Header V8.Store V8.Tree V8.Embed
open V8.Nested hiding Env Handler
open V8.Object hiding Cls
open V8.Product (getAt setAt Options)
open V8.Misc (Cls)

/-- the settings of both directions: `x`, `y` as for objects, `o` the options of the build that concern the product, `tool` is `__version__`,
`types` is MetaDataTypes (metadata_types.py:14-108), `groups` the identifiers of MetaDataGroup (metadata_types.py:4-11), `rnd` are the results
of uuid4 -/
structure Env where
  x : Ext
  y : Bld
  o : Options
  tool : Text
  types : Text → Option Text
  groups : List Text
  rnd : Nat → Text

/-- the files of a class of products -/
structure Kind where
  /-- the name of the class -/
  name : Text
  /-- the place of the header: Configuration.py:75-77, ExternalDataProcessor.py:56-58 -/
  head : List Nat
  /-- ext_code -/
  codes : List (Text × Text)
  /-- help_file_number -/
  help : Option Text
  /-- _images: name and suffix -/
  image : Option (Text × Text)
  /-- _obj_info -/
  files : List Text
  /-- ConfigurationExtension.info -/
  infos : List Text
  /-- the place of the compatibility mode -/
  compat : Option (List Nat)

/-- Configuration.py:11-37 -/
def config : Kind :=
  ⟨"Configuration".toList, V8.Product.rootHeader,
   [("seance", "7"), ("app", "6"), ("802", "0"), ("con", "5")].map (fun p => (p.1.toList, p.2.toList)), some "3".toList,
   some ("Заставка".toList, "2".toList), ["4", "9", "8", "10", "a", "b", "c", "d", "e", "f"].map String.toList, [], some V8.Product.compatConf⟩

/-- ConfigurationExtension.py:9-18; help page and splash screen are not handled (lines 40-51) -/
def extension : Kind :=
  ⟨"ConfigurationExtension".toList, V8.Product.rootHeader,
   [("con", "5"), ("app", "6"), ("ssn", "7")].map (fun p => (p.1.toList, p.2.toList)), none, none, ["a".toList], ["8", "9"].map String.toList,
   some V8.Product.compatExt⟩

/-- ExternalDataProcessor.py; ext_code of MetaObject/__init__.py:13 -/
def processor : Kind :=
  ⟨"ExternalDataProcessor".toList, V8.Product.edpHeader, [("obj".toList, "0".toList)], none, none, [], [], none⟩

def kindOf : Cls → Kind
  | .config => config
  | .extension => extension
  | .processor => processor

/-- comment_directive, uncomment_directive: Configuration.py:62, 129, ExternalDataProcessor.py:33, 91; ConfigurationExtension.py:40, 97: never -/
def directives (c : Cls) (ver : Text) : Bool := decide (c ≠ .extension) && (decide (ver = "802".toList) || decide (ver = "801".toList))

/-! ### the lists -/

/-- the places of the lists of a configuration: Configuration.py:87-103, 173-190; `none` is an exception -/
def groupPaths (groups : List Text) (h : Val) : Nat → Nat → Option (List (List Nat))
  | _, 0 => some []
  | i, n + 1 => match getAt h [0, i + 3, 0], getAt h [0, i + 3, 1, 0] with
    | some (.str u), some v => if u ∈ groups then
        (groupPaths groups h (i + 1) n).map (fun r => (if v = .str ['6'] then [0, i + 3, 1, 1] else [0, i + 3, 1]) :: r)
      else none
    | _, _ => none

/-- the places of the lists: Configuration.py:87-103, ExternalDataProcessor.py:52-54.  The number of groups is `header_data[0][2]`. -/
def listPaths (groups : List Text) (c : Cls) (h : Val) : Option (List (List Nat)) := match c with
  | .processor => some [[0, 3, 1]]
  | _ => match getAt h [0, 2] with
    | some (.str n) => (V8.Dec.parseInt n).bind (fun c => groupPaths groups h 0 c.toNat)
    | _ => none

/-- the folders made for the lists of one group: MetaObject/__init__.py:97, 104-105, 117-118 -/
def foldersOf (E : Nested.Env) : List Val → List Text
  | _ :: _ :: .str n :: slots => match V8.Dec.parseInt n with
    | some c => (slots.take c.toNat).filterMap (folderOf E)
    | none => []
  | _ => []

/-- decode_include when some folders are there already: MetaObject/__init__.py:71-126 -/
def decodeFrom (E : Nested.Env) (auto : Bool) (made : List Text) : List Val → Option (List Val × List Obj)
  | a :: b :: .str n :: slots => match V8.Dec.parseInt n with
    | none => none
    | some c => (decodeSlots E auto made c.toNat slots).map (fun p => (a :: b :: .str n :: p.1, p.2))
  | _ => none

/-- decode_includes: Configuration.py:87-103, MetaObject/__init__.py:64-69: the lists one after the other.  All of them make their folders in the
same place: a folder made before is FileExistsError. -/
def takeLists (E : Nested.Env) (auto : Bool) : List Text → List (List Nat) → Val → Option (Val × List Obj)
  | _, [], v => some (v, [])
  | made, p :: ps, v => match getAt v p with
    | some (.list inc) => (decodeFrom E auto made inc).bind (fun r => (setAt v p (.list r.1)).bind (fun v' =>
        (takeLists E auto (foldersOf E inc ++ made) ps v').map (fun q => (q.1, r.2 ++ q.2))))
    | _ => none

/-- fill_header_includes: Configuration.py:173-190, MetaObject/__init__.py:132-146 -/
def putLists (E : Nested.Env) (es : List Entry) : List (List Nat) → Val → Option Val
  | [], v => some v
  | p :: ps, v => match getAt v p with
    | some (.list inc) => (fillInclude E es inc).bind (fun inc' => (setAt v p (.list inc')).bind (putLists E es ps))
    | _ => none

/-! ### extraction -/

/-- a brace file that has to be there -/
noncomputable def need (F : Text → Option Node) (n : Text) : Option Val := match F n with
  | some (.file b) => tree b
  | _ => none

def strOf : Val → Option Text
  | .str s => some s
  | _ => none

def listOf : Val → Option (List Val)
  | .list l => some l
  | _ => none

/-- the file that names the product: `root`, for extensions `configinfo` -/
def rootName : Cls → Text
  | .extension => "configinfo".toList
  | _ => "root".toList

/-- where file_uuid stands in it: Configuration.py:47, ConfigurationExtension.py:25, ExternalDataProcessor.py:17 -/
def filePath : Cls → List Nat
  | .extension => [1, 1]
  | _ => [0, 1]

/-- the first entries of the description: Configuration.py:44-48, ConfigurationExtension.py:21-28, ExternalDataProcessor.py:15-17 -/
def frontOut (c : Cls) (tool fu : Text) (root : Val) : Option (List (Place JT)) := match c with
  | .config => some [("v8unpack".toList, some (.str tool)), ("file_uuid".toList, some (.str fu)), ("root".toList, some (jsonOf root))]
  | .extension => (getAt root [0, 1]).bind (fun v => (getAt root [1]).map (fun ci =>
      [("configinfo".toList, some (jsonOf root)), ("v8unpack".toList, some (.str tool)), ("file_uuid".toList, some (.str fu)),
       ("version".toList, some (jsonOf v)), ("copyinfo".toList, some (jsonOf ci))]))
  | .processor => some [("root".toList, some (.bool true)), ("file_uuid".toList, some (.str fu))]

/-- the entries of the header: helper.py:115-143, MetaObject/__init__.py:51-55, ConfigurationExtension.py:30-32 (another order) -/
def headOut (c : Cls) (info : Info) (h : Val) : List (Place JT) :=
  let i : List (Place JT) := [("uuid".toList, some (.str info.uuid)), ("name".toList, some (.str info.name)),
    ("name2".toList, some (.obj (info.name2.map (fun p => (p.1, .str p.2))))), ("comment".toList, some (.str info.comment))]
  match c with
  | .extension => ("header".toList, some (jsonOf h)) :: i
  | _ => i ++ [("header".toList, some (jsonOf h))]

/-- a brace file that may be missing -/
noncomputable def optTree : Option Bytes → Option (Option Val)
  | none => some none
  | some b => (tree b).map some

/-- a brace file that may be missing, as an entry; `null` when it is missing: ExternalDataProcessor.py:26-31 -/
noncomputable def form1Out (F : Text → Option Node) (u : Text) : Option (List (Place JT)) :=
  (fileAt F (dot u "1".toList)).bind (fun f => (optTree f).map (fun v => [("form1".toList, some ((v.map jsonOf).getD .null))]))

/-- the entries of the other files of the product: Configuration.py:51-52, ExternalDataProcessor.py:20-31 -/
noncomputable def otherOut (c : Cls) (tool : Text) (F : Text → Option Node) (u : Text) : Option (List (Place JT)) := match c with
  | .config => (need F "version".toList).bind (fun v => (need F "versions".toList).map (fun vs =>
      [("version".toList, some (jsonOf v)), ("versions".toList, some (jsonOf vs))]))
  | .extension => some []
  | .processor => (need F "version".toList).bind (fun v => (need F "copyinfo".toList).bind (fun ci => (form1Out F u).map (fun f =>
      [("v8unpack".toList, some (.str tool)), ("version".toList, some (jsonOf v)), ("copyinfo".toList, some (jsonOf ci))] ++ f)))

/-- the compatibility mode: Configuration.py:55-59, ConfigurationExtension.py:34-38 (`version` is never given: decoder.py:85) -/
def compatOut (k : Kind) (h : Val) : Option (List (Place JT)) := match k.compat with
  | none => some []
  | some slot => (getAt h slot).map (fun v => [("compatibility_version".toList, some (jsonOf v))])

def imageKey (n : Text) : Text := "image_".toList ++ n

/-- the splash screen: Configuration.py:142-156 -/
noncomputable def imagesOut (F : Text → Option Node) (u : Text) : Option (Text × Text) → Option (List (Place JT) × List (Place Bytes))
  | none => some ([], [])
  | some (n, sfx) => (fileAt F (dot u sfx)).bind (fun f => (imageOut tree f).map (fun r =>
      ([(imageKey n, r.2.map jsonOf)], [(n, r.1)])))

/-- `f'{name}.{n}.json'` -/
def infoFile (name n : Text) : Text := dot (dot name n) "json".toList

/-- _decode_info: MetaObject/__init__.py:454-462 -/
noncomputable def filesOut (win : Bool) (name : Text) (F : Text → Option Node) (u : Text) : List Text → Option (List (Place Bytes))
  | [] => some []
  | n :: r => (fileAt F (dot u n)).bind (fun f => (optTree f).bind (fun v =>
        (filesOut win name F u r).map (fun l => (infoFile name n, v.map (fun v => fileOf win (jsonOf v))) :: l)))

def infoEntry (n : Text) : Text := "info".toList ++ n

/-- a folder counts as nothing -/
def fileOnly : Option Node → Option Bytes
  | some (.file b) => some b
  | _ => none

/-- ConfigurationExtension.py:42-49: a folder in the place of the file is passed over -/
noncomputable def infosOut (F : Text → Option Node) (u : Text) : List Text → Option (List (Place JT))
  | [] => some []
  | n :: r => (optTree (fileOnly (F (dot u n)))).bind (fun f => (infosOut F u r).map (fun l => (infoEntry n, f.map jsonOf) :: l))

/-- version.bin: ConfigurationExtension.py:33, 53 -/
noncomputable def versionOut (c : Cls) (win : Bool) (h : Val) : Option (List (Place Bytes)) := match c with
  | .extension => (V8.Product.versionFile win h).map (fun b => [("version.bin".toList, some b)])
  | _ => some []

/-- the parts of a product: Configuration.py:62-65, ConfigurationExtension.py:40-51, ExternalDataProcessor.py:33: entries of the description, files -/
noncomputable def partsOut (win : Bool) (k : Kind) (dir : Bool) (F : Text → Option Node) (u : Text) : Option (List (Place JT) × List (Place Bytes)) :=
  (helpOut "help".toList F u k.help).bind fun help => (imagesOut F u k.image).bind fun image => (filesOut win k.name F u k.files).bind fun files =>
  (codesOut win dir k.name F u k.codes).bind fun codes => (infosOut F u k.infos).map fun infos =>
    (codes.1 ++ help.1 ++ image.1 ++ infos, help.2 ++ image.2 ++ files ++ codes.2)

/-- everything beside the header: the entries before and after it, the files -/
noncomputable def besideOut (e : Env) (c : Cls) (ver : Text) (F : Text → Option Node) (root : Val) (fu u : Text) (h : Val) :
    Option (List (Place JT) × List (Place JT) × List (Place Bytes)) :=
  (frontOut c e.tool fu root).bind fun front => (otherOut c e.tool F u).bind fun other => (compatOut (kindOf c) h).bind fun compat =>
  (versionOut c e.x.win h).bind fun vb => (partsOut e.x.win (kindOf c) (directives c ver) F u).map fun parts =>
    (front, other ++ compat ++ parts.1, parts.2 ++ vb)

/-- the description: Configuration.py:68-69, ConfigurationExtension.py:54-55, ExternalDataProcessor.py:40-41 -/
def description (c : Cls) (ver : Text) (before after : List (Place JT)) (info : Info) (h : Val) : List (Place JT) :=
  before ++ headOut c info h ++ after ++ [("obj_version".toList, some (.str ver))]

/-- decode of the product without the nested objects: Configuration.py:43-72, ConfigurationExtension.py:20-58, ExternalDataProcessor.py:13-46: what
is recorded, the nested objects found, the files of the sources -/
noncomputable def rootOut (e : Env) (c : Cls) (ver : Text) (F : Text → Option Node) : Option (Info × List Obj × List (Place Bytes)) :=
  (need F (rootName c)).bind fun root => ((getAt root (filePath c)).bind strOf).bind fun fu => (need F fu).bind fun h =>
  ((getAt h (kindOf c).head).bind listOf).bind fun hd => (decodeHeader e.x.valid e.x.p false hd).toOption.bind fun r =>
  (setAt h (kindOf c).head (.list r.2)).bind fun h1 => (besideOut e c ver F root fu r.1.uuid h1).bind fun b =>
  (listPaths e.groups c h1).bind fun paths => (takeLists e.x.E e.x.auto [] paths h1).map fun t =>
    (r.1, t.2, b.2.2 ++ [(objName (kindOf c).name, some (fileOf e.x.win (.obj (written (description c ver b.1 b.2.1 r.1 t.1)))))])

/-- detect_version: decoder.py:59-76 -/
noncomputable def detect (e : Env) (F : Text → Option Node) : Option (Cls × Text) :=
  (match F "root".toList with
    | some (.file _) => (need F "version".toList).bind fun v => (need F "root".toList).bind fun r => ((getAt r [0, 1]).bind strOf).bind fun fu =>
        (need F fu).map fun h => (Embed.truthy r, v, h)
    | _ => some (false, Val.none, Val.none)).bind fun a =>
  (match F "configinfo".toList with
    | some (.file _) => (need F "configinfo".toList).map some
    | _ => some none).bind fun ci =>
  V8.Misc.handler e.types a.1 a.2.1 a.2.2 ci

/-- container_uuid of the product, which its nested objects know: `header_data[0][3][1][1][1]` of an external data processor, none of the others
(ExternalDataProcessor.py:51-53, MetaObject/__init__.py:35-37).  Simplification: a value that is no text counts as None. -/
def conHeader (c : Cls) (h : Val) : Option Text := match c with
  | .processor => (getAt h [0, 3, 1, 1, 1]).bind strOf
  | _ => none

/-- the same during extraction: ExternalDataProcessor.py:39 (the header is changed in other places only) -/
noncomputable def conOut (c : Cls) (F : Text → Option Node) : Option Text :=
  (need F (rootName c)).bind fun root => ((getAt root (filePath c)).bind strOf).bind fun fu => (need F fu).bind (conHeader c)

/-- the same during a build: decoder.py:116-118 -/
def conIn (c : Cls) (j : JT) : Option Text := (treeAt j "header".toList).bind (conHeader c)

/-- Decoder.decode: decoder.py:78-92: the product with everything nested in it; `n` limits the depth -/
noncomputable def extractProduct (e : Env) (K : Text → Option Handler) (c : Cls) (ver : Text) (F : Text → Option Node) (n : Nat) : Option (Info × Dir) :=
  (rootOut e c ver F).bind fun r => (extractKids (extractTree K F n (conOut c F)) r.2.1).bind fun subs =>
    if (subs.map (fun s => (s.1, s.2.1))).Nodup then some (r.1, .mk (nodes r.2.2) (.ofList subs)) else none

/-! ### build -/

/-- an entry as brace data -/
def treeEntry (j : JT) (key : Text) : Option (List (List Val)) := ((entry j key).bind valOf).bind rootOf

/-- `self.header['compatibility_version']`: Configuration.py:112-115; `some none` is the KeyError that is passed over -/
def modeOf (j : JT) : Option (Option Val) := match entry j "compatibility_version".toList with
  | none => some none
  | some v => (valOf v).map some

/-- the header with what the options of the build change: ConfigurationExtension.py:63-79, Configuration.py:107-115, ExternalDataProcessor.py:74;
`o` has the version of version.bin already (decoder.py:186-190) -/
def headerIn (c : Cls) (o : Options) (file : Text) (j : JT) (h : Val) : Option Val := match c with
  | .config => (modeOf j).bind (fun m => V8.Product.buildCompat V8.Product.compatConf o m h)
  | .extension => (modeOf j).bind (fun m =>
      ((V8.Product.setInfoExt o file h).bind (V8.Product.buildCompat V8.Product.compatExt o m)).bind (V8.Product.buildPrefix o))
  | .processor => V8.Product.setInfoEdp o file h

/-- `self.header.get('form1')`: ExternalDataProcessor.py:86-89 -/
def form1In (j : JT) : Option (Option (List (List Val))) := match entry j "form1".toList with
  | none => some none
  | some f => if falsy f then some none else ((valOf f).bind rootOf).map some

/-- the root of an external data processor: ExternalDataProcessor.py:102-107 -/
def edpRoot (fu : Text) : List (List Val) := [[.str ['2'], .str fu, .str []]]

/-- the root of an extension: ConfigurationExtension.py:91-96 -/
def extRoot (v ci : Val) : Val := .list [.list [.str ['0'], v], ci, .list [.str "____versions____".toList]]

/-- the file of the header `hf` and the ones beside it: Configuration.py:120-132, ConfigurationExtension.py:91-101,
ExternalDataProcessor.py:78-90; their names in the order of the list of files -/
noncomputable def frontIn (c : Cls) (win : Bool) (j : JT) (u fu : Text) (hf : Node) : Option (List (Place Node)) := match c with
  | .config => (treeEntry j "root".toList).bind fun r => (treeEntry j "version".toList).map fun v =>
      [("root".toList, some (.file (braceFile win r))), ("version".toList, some (.file (braceFile win v))), (fu, some hf)]
  | .extension => ((entry j "version".toList).bind valOf).bind fun v => ((entry j "copyinfo".toList).bind valOf).bind fun ci =>
      (rootOf (extRoot v ci)).map fun d => [("configinfo".toList, some (.file (braceFile win d))), (fu, some hf)]
  | .processor => (treeEntry j "version".toList).bind fun v => (treeEntry j "copyinfo".toList).bind fun ci => (form1In j).map fun f =>
      [("root".toList, some (.file (braceFile win (edpRoot fu)))), ("version".toList, some (.file (braceFile win v))),
       ("copyinfo".toList, some (.file (braceFile win ci))), (fu, some hf), (dot u "1".toList, f.map (fun d => .file (braceFile win d)))]

/-- `self.header.get(f'image_{elem}')` -/
def imageField (j : JT) (n : Text) : Option (Option Val) := match entry j (imageKey n) with
  | none => some none
  | some v => (valOf v).map some

/-- _encode_images: Configuration.py:158-171 -/
noncomputable def imagesIn (win : Bool) (S : Text → Option Bytes) (j : JT) (u : Text) : Option (Text × Text) → Option (List (Place Node))
  | none => some []
  | some (n, sfx) => (imageField j n).bind (fun f => (imageIn (ser win) (S n) f).map (fun r => [(dot u sfx, r.map Node.file)]))

/-- a JSON file that may be missing, as brace data: MetaObject/__init__.py:479, 483 -/
noncomputable def jsonFile : Option Bytes → Option (Option (List (List Val)))
  | none => some none
  | some b => (readFile b).bind (fun j => ((valOf j).bind rootOf).map some)

/-- _encode_info: MetaObject/__init__.py:475-484 -/
noncomputable def filesIn (win : Bool) (name : Text) (S : Text → Option Bytes) (u : Text) : List Text → Option (List (Place Node))
  | [] => some []
  | n :: r => (jsonFile (S (infoFile name n))).bind (fun f =>
        (filesIn win name S u r).map (fun l => (dot u n, f.map (fun d => Node.file (braceFile win d))) :: l))

/-- an entry that may be missing, as brace data -/
def rootEntry (j : JT) (key : Text) : Option (Option (List (List Val))) := match entry j key with
  | none => some none
  | some v => ((valOf v).bind rootOf).map some

/-- ConfigurationExtension.py:102-106 -/
noncomputable def infosIn (win : Bool) (j : JT) (u : Text) : List Text → Option (List (Place Node))
  | [] => some []
  | n :: r => (rootEntry j (infoEntry n)).bind (fun f =>
        (infosIn win j u r).map (fun l => (dot u n, f.map (fun d => Node.file (braceFile win d))) :: l))

/-- encode_versions: MetaObject/__init__.py:222-228 -/
def versionsRow (rnd : Nat → Text) : Nat → List Text → List Val
  | _, [] => []
  | i, n :: r => .str (V8.Module.strEncode n) :: .str (rnd i) :: versionsRow rnd (i + 1) r

def versionsTree (rnd : Nat → Text) (names : List Text) : List (List Val) :=
  [.str ['1'] :: .str (V8.Dec.showNat (names.length + 1)) :: .str ['"', '"'] :: .str (rnd 0) :: versionsRow rnd 1 names]

/-- `self.header.get('v8unpack', '')`: Configuration.py:106, ConfigurationExtension.py:85, ExternalDataProcessor.py:64 -/
def toolOf (j : JT) : Option Text := match entry j "v8unpack".toList with
  | none => some []
  | some (.str s) => some s
  | some _ => none

/-- version.bin replaces the version of the options: decoder.py:186-190 -/
def optionsIn (o : Options) (file : Option Bytes) : Option Options := match file with
  | none => some o
  | some b => (V8.Product.readVersion (some b)).map (fun v => { o with productVersion := v })

/-- the lists are filled only with auto_include and when something was delivered: Configuration.py:117-118 and the same in the other classes -/
def listsIn (e : Env) (c : Cls) (es : List Entry) (h : Val) : Option Val :=
  if es = [] ∨ e.y.auto = false then some h else (listPaths e.groups c h).bind (fun ps => putLists e.y.E es ps h)

/-- the files of the parts of a product: Configuration.py:125-129, ConfigurationExtension.py:97-100, ExternalDataProcessor.py:91 -/
noncomputable def partsIn (win : Bool) (k : Kind) (dir : Bool) (S : Text → Option Bytes) (j : JT) (u : Text) : Option (List (Place Node)) :=
  (helpIn win "help".toList S j u k.help).bind fun help => (imagesIn win S j u k.image).bind fun image =>
  (filesIn win k.name S u k.files).bind fun files => (codesIn win dir k.name S j u k.codes).map fun codes => help ++ image ++ files ++ codes

/-- the file `versions`; an extension has none -/
noncomputable def versionsIn (c : Cls) (win : Bool) (rnd : Nat → Text) (names : List Text) : List (Text × Node) := match c with
  | .extension => []
  | _ => [("versions".toList, .file (braceFile win (versionsTree rnd names)))]

/-- encode of the product without the nested objects: Configuration.py:105-135, ConfigurationExtension.py:60-108, ExternalDataProcessor.py:60-100;
`made` are the names of the files of the nested objects, `es` what the nested objects delivered -/
noncomputable def rootIn (e : Env) (c : Cls) (ver file : Text) (made : List Text) (es : List Entry) (S : Text → Option Bytes) (j : JT) : Option (List (Text × Node)) :=
  (textAt j "uuid".toList).bind fun u => (textAt j "file_uuid".toList).bind fun fu => (treeAt j "header".toList).bind fun h =>
  (toolOf j).bind fun v8 => if V8.Misc.checkVersion e.tool v8 ≠ .ok () then none else
  (optionsIn e.o (S "version.bin".toList)).bind fun o => (headerIn c o file j h).bind fun h1 => (listsIn e c es h1).bind fun h2 =>
  (rootOf h2).bind fun d => (frontIn c e.y.win j u fu (.file (braceFile e.y.win d))).bind fun front =>
  (partsIn e.y.win (kindOf c) (directives c ver) S j u).bind fun parts => (infosIn e.y.win j u (kindOf c).infos).map fun infos =>
    written (front ++ parts ++ infos) ++ versionsIn c e.y.win e.rnd (made ++ (written front).map (·.1) ++ ["versions".toList] ++ (written parts).map (·.1))

/-- `header.get(key)` as an argument of get_handler_by_version_file: decoder.py:115 -/
def argOf (j : JT) (key : Text) : Val := ((entry j key).bind valOf).getD .none

/-- Decoder.encode: decoder.py:109-150: the class is chosen from the description.  `ord` is the order of delivery, `shuf` the order in which
the names of the files come.  The version of the product is read before anything is built (decoder.py:186-190): the classes `K` of the nested
objects know the version of the format and the version of the product. -/
noncomputable def buildFrom (e : Env) (K : Text → Text → Text → Option Handler) (ord : Text → List Entry → List Entry) (shuf : List Text → List Text)
    (file : Text) (S : Text → Option Bytes) (subs : Subs) : Option (Cls × List (Text × Node)) :=
  (V8.Misc.getEncoder (fun n => (S n).isSome)).bind fun t => (S (objName t)).bind fun b => (readFile b).bind fun j =>
    (V8.Misc.handler e.types (!((entry j "root".toList).map falsy).getD true) (argOf j "version".toList) (argOf j "header".toList)
      (((entry j "configinfo".toList).bind valOf).filter Embed.truthy)).bind fun cv =>
    (optionsIn e.o (S "version.bin".toList)).bind fun o => (buildSubs (K cv.2 o.productVersion) ord (conIn cv.1 j) (kindOf cv.1).name subs).bind fun r =>
    (rootIn e cv.1 cv.2 file (shuf (r.2.map (·.1))) (ord (kindOf cv.1).name r.1) S j).map fun fs => (cv.1, r.2 ++ fs)

/-- Decoder.encode for a source folder: decoder.py:109-150 -/
noncomputable def buildProduct (e : Env) (K : Text → Text → Text → Option Handler) (ord : Text → List Entry → List Entry) (shuf : List Text → List Text)
    (file : Text) : Dir → Option (Cls × List (Text × Node))
  | .mk src subs => buildFrom e K ord shuf file (fileIn (folder src)) subs

end V8.Root
