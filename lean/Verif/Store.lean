import Verif.Object
import Verif.Module
import Verif.Embed
/-
Model of all the files of one metadata object, both ways: /repo/src/v8unpack/MetaDataObject/__init__.py:47-101, 114-187,
/repo/src/v8unpack/MetaDataObject/core/Container.py:18-55, /repo/src/v8unpack/MetaDataObject/core/Simple.py:6-25,
/repo/src/v8unpack/MetaDataObject/core/SimpleWithInfo.py:7-38, /repo/src/v8unpack/MetaDataObject/BusinessProcess.py,
/repo/src/v8unpack/MetaDataObject/XDTOPackage.py, /repo/src/v8unpack/MetaDataObject/Subsystem.py,
/repo/src/v8unpack/MetaDataObject/ExchangePlan.py, /repo/src/v8unpack/MetaObject/__init__.py:290-364, 390-445, with the class table
of /repo/src/v8unpack/MetaDataObject/*.py.

In the container an object has the file `uuid` and files or folders `uuid.suffix`; in the sources it has a folder of files.
Not here: forms, templates, pictures, web service references, the product itself; and AccountingRegister, where the place of the header depends on the version.
-/
namespace V8.Store
open V8.Brace V8.Enc V8.JsonText V8.Header V8.Nested V8.Object V8.Embed
open V8.Module (Stored EncName extractModule buildModule)

/-- what a name in the container folder stands for -/
inductive Node where
  | file (b : Bytes)
  | dir (f : Text → Option Bytes)

/-- the files of a class -/
structure Kind where
  /-- the name of the class -/
  name : Text
  cls : Cls
  /-- ext_code, in order: name and suffix of each module -/
  codes : List (Text × Text)
  /-- help_file_number -/
  help : Option Text
  /-- files that are copied: suffix and name in the sources -/
  blobs : List (Text × Text)
  /-- a brace file that goes into the description -/
  info : Option Text
deriving DecidableEq

/-- `f'{a}.{b}'` -/
def dot (a b : Text) : Text := a ++ '.' :: b

/-- a name and the file that is written under it, if any -/
abbrev Place (α : Type) := Text × Option α

/-- the files that are written -/
def written {α : Type} (ps : List (Place α)) : List (Text × α) := ps.filterMap (fun p => p.2.map (fun v => (p.1, v)))

/-- the folder after the files were written into it -/
def folder {α : Type} (ps : List (Place α)) : Text → Option α :=
  fun n => ((written ps).reverse.find? (fun p => decide (p.1 = n))).map (·.2)

/-- files as they are found in a folder -/
def nodes (ps : List (Place Bytes)) : List (Place Node) := ps.map (fun p => (p.1, p.2.map Node.file))

/-- a file of the sources -/
def fileIn (S : Text → Option Node) : Text → Option Bytes := fun n => match S n with
  | some (.file b) => some b
  | _ => none

/-! ### extraction -/

/-- the names of encodings in the description: helper.py:300-314, MetaObject/__init__.py:262-275 -/
def encName : EncName → Text
  | .utf8 => "utf-8".toList
  | .utf8sig => "utf-8-sig".toList
  | .utf16 => "utf-16".toList
  | .utf32 => "utf-32".toList
  | .cp1251 => "windows-1251".toList
  | .bin => "bin".toList

/-- how a module lies in the container: MetaObject/__init__.py:294-300, 316; `none` is an exception -/
noncomputable def storedOf : Option Node → Option Stored
  | none => some .absent
  | some (.file b) => some (.file b)
  | some (.dir f) => ((f "info".toList).bind braceRead).map (fun i => .dir i (f "text".toList) (f "image".toList) (f "bin".toList))

def infoKey (n : Text) : Text := "code_info_".toList ++ n
def encKey (n : Text) : Text := "code_encoding_".toList ++ n
def bslName (k n : Text) : Text := dot (dot k n) "bsl".toList
def binName (k n : Text) : Text := dot (dot k n) "bin".toList

/-- one module: MetaObject/__init__.py:290-329 (`cd` is uncomment_directive): entries of the description and source files -/
noncomputable def codeOut (win cd : Bool) (k : Text) (F : Text → Option Node) (u : Text) (c : Text × Text) :
    Option (List (Place JT) × List (Place Bytes)) :=
  (storedOf (F (dot u c.2))).map (fun st =>
    let s := extractModule win cd st
    ([(infoKey c.1, s.info.map (fun i => match i with
        | none => .str "file".toList
        | some d => jsonOf (rootVal d))),
      (encKey c.1, s.info.map (fun _ => .str (encName s.enc)))],
     [(bslName k c.1, s.bsl), (binName k c.1, s.blob)]))

/-- all modules -/
noncomputable def codesOut (win cd : Bool) (k : Text) (F : Text → Option Node) (u : Text) :
    List (Text × Text) → Option (List (Place JT) × List (Place Bytes))
  | [] => some ([], [])
  | c :: r => (codeOut win cd k F u c).bind (fun a => (codesOut win cd k F u r).map (fun b => (a.1 ++ b.1, a.2 ++ b.2)))

/-- a file; a folder in its place is an exception -/
def fileAt (F : Text → Option Node) (n : Text) : Option (Option Bytes) := match F n with
  | none => some none
  | some (.file b) => some (some b)
  | some (.dir _) => none

/-- brace data as one tree -/
noncomputable def tree (b : Bytes) : Option Val := (braceRead b).map rootVal

/-- the help page: Container.py:20-22, Simple.py:8-10, MetaObject/__init__.py:390-410 -/
noncomputable def helpOut (k : Text) (F : Text → Option Node) (u : Text) : Option Text → Option (List (Place JT) × List (Place Bytes))
  | none => some ([], [])
  | some sfx => (fileAt F (dot u sfx)).bind (fun f => (htmlOut tree f).map (fun h =>
      ([("help".toList, h.field.map jsonOf)], [(dot k "html".toList, h.html), (dot k "bin".toList, h.bin)])))

/-- the files that are copied: Container.py:27-32, BusinessProcess.py:13-18, SimpleWithInfo.py:8-14, XDTOPackage.py:8-12 -/
def blobsOut (F : Text → Option Node) (u : Text) : List (Text × Text) → Option (List (Place Bytes))
  | [] => some []
  | c :: r => (fileAt F (dot u c.1)).bind (fun f => (blobsOut F u r).map (fun b => (c.2, f) :: b))

/-- the brace file of the description: Subsystem.py:14-18, ExchangePlan.py:17-20 -/
noncomputable def infoOut (F : Text → Option Node) (u : Text) : Option Text → Option (List (Place JT))
  | none => some []
  | some sfx => (fileAt F (dot u sfx)).bind (fun f => match f with
    | none => some [("info".toList, some .null)]
    | some b => (tree b).map (fun v => [("info".toList, some (jsonOf v))]))

/-- what an object with the identifier `u` has beside its own file: entries of the description, files of the sources -/
noncomputable def partsOut (win : Bool) (k : Kind) (F : Text → Option Node) (u : Text) : Option (List (Place JT) × List (Place Bytes)) :=
  (helpOut k.name F u k.help).bind (fun h => (blobsOut F u k.blobs).bind (fun b => (codesOut win false k.name F u k.codes).bind (fun c =>
    (infoOut F u k.info).map (fun i => (h.1 ++ c.1 ++ i, h.2 ++ b ++ c.2)))))

def idName (k : Text) : Text := dot k "id.json".toList
def objName (k : Text) : Text := dot k "json".toList

/-- decode: MetaDataObject/__init__.py:47-61: what is recorded, the nested objects found, the files of the sources.  The description is
written last, when its entries are known. -/
noncomputable def extractAll (x : Ext) (k : Kind) (ver : Option Text) (F : Text → Option Node) (file : Text) :
    Option (Info × List Obj × List (Place Bytes)) :=
  match F file with
  | some (.file b) => (extract x k.cls ver [] b).bind (fun r => (partsOut x.win k F r.1.uuid).bind (fun p =>
      (extract x k.cls ver (written p.1) b).map (fun q =>
        (q.1, q.2.1, p.2 ++ [(idName k.name, some q.2.2.id), (objName k.name, some q.2.2.obj)]))))
  | _ => none

/-! ### build -/

/-- Python truth of a JSON value -/
def falsy : JT → Bool
  | .null => true
  | .bool b => !b
  | .int i => decide (i = 0)
  | .str s => s.isEmpty
  | .arr l => l.isEmpty
  | .obj d => d.isEmpty
  | .float _ => false

/-- `header.get(key)` -/
def entry : JT → Text → Option JT
  | .obj d, k => dget d k
  | _, _ => none

/-- `header.get(f'code_info_{code_name}')`: MetaObject/__init__.py:333, 345, 360; `none`: exception, `some none`: nothing there -/
def codeInfo (j : JT) (n : Text) : Option (Option (Option (List (List Val)))) := match entry j (infoKey n) with
  | none => some none
  | some v => if falsy v then some none else match v with
    | .str s => if s = "file".toList then some (some none) else none
    | v => ((valOf v).bind rootOf).map (fun d => some (some d))

/-- `header.get(f'code_encoding_{code_name}')`: MetaObject/__init__.py:335, 344.  Simplification: only the names extraction writes. -/
def encOf (j : JT) (n : Text) : Option EncName := match entry j (encKey n) with
  | some (.str s) => [EncName.utf8, .utf8sig, .utf16, .utf32, .cp1251, .bin].find? (fun e => decide (encName e = s))
  | _ => none

/-- the folder of a module: MetaObject/__init__.py:354-364 -/
def modDir (info text : Bytes) : Text → Option Bytes :=
  fun n => if n = "info".toList then some info else if n = "text".toList then some text else none

/-- the file or folder that is written for a module -/
noncomputable def nodeOf (win : Bool) : Stored → Option Node
  | .absent => none
  | .file b => some (.file b)
  | .dir i t _ _ => some (.dir (modDir (braceFile win i) (t.getD [])))

/-- one module: MetaObject/__init__.py:331-364 (`cd` is comment_directive) -/
noncomputable def codeIn (win cd : Bool) (k : Text) (S : Text → Option Bytes) (j : JT) (u : Text) (c : Text × Text) : Option (Place Node) :=
  match codeInfo j c.1 with
  | none => none
  | some none => some (dot u c.2, none)
  | some (some i) => (encOf j c.1).bind (fun e =>
      (buildModule win cd ⟨some i, e, S (bslName k c.1), S (binName k c.1)⟩).map (fun st => (dot u c.2, nodeOf win st)))

noncomputable def codesIn (win cd : Bool) (k : Text) (S : Text → Option Bytes) (j : JT) (u : Text) :
    List (Text × Text) → Option (List (Place Node))
  | [] => some []
  | c :: r => (codeIn win cd k S j u c).bind (fun a => (codesIn win cd k S j u r).map (fun b => a :: b))

/-- brace_file_write of a tree (a tree that is no list of lists does not come from extraction) -/
noncomputable def ser (win : Bool) (v : Val) : Bytes := ((rootOf v).map (braceFile win)).getD []

/-- `self.header.get(header_field)`: MetaObject/__init__.py:440 -/
def helpField (j : JT) : Option (Option Val) := match entry j "help".toList with
  | none => some none
  | some v => (valOf v).map some

/-- the help page: Container.py:39-40, Simple.py:20-21, MetaObject/__init__.py:426-445 -/
noncomputable def helpIn (win : Bool) (k : Text) (S : Text → Option Bytes) (j : JT) (u : Text) : Option Text → Option (List (Place Node))
  | none => some []
  | some sfx => (helpField j).bind (fun field =>
    (htmlIn (ser win) ⟨S (dot k "html".toList), S (dot k "bin".toList), field⟩).map (fun f => [(dot u sfx, f.map Node.file)]))

/-- the files that are copied: Container.py:46-53, BusinessProcess.py:20-29, SimpleWithInfo.py:27-38, XDTOPackage.py:20-28 -/
def blobsIn (S : Text → Option Bytes) (u : Text) (blobs : List (Text × Text)) : List (Place Node) :=
  blobs.map (fun c => (dot u c.1, (S c.2).map Node.file))

/-- the brace file of the description: Subsystem.py:21-30, ExchangePlan.py:22-29; a description without the entry is a KeyError -/
noncomputable def infoIn (win : Bool) (j : JT) (u : Text) : Option Text → Option (List (Place Node))
  | none => some []
  | some sfx => (entry j "info".toList).bind (fun v =>
      if falsy v then some [(dot u sfx, none)] else ((valOf v).bind rootOf).map (fun d => [(dot u sfx, some (.file (braceFile win d)))]))

/-- what an object hands to its parent: identifier, name, data: MetaDataObject/__init__.py:161-168 -/
structure Given where
  uu : Text
  nm : Text
  data : Val
deriving DecidableEq

/-- encode: MetaDataObject/__init__.py:114-187: what the object hands to its parent (get_internal_data, lines 104-105: the identifier) and the
files written into the container, in this order; this is also the order of the list of files (`file_list`).  If one of the two JSON files is not
there, nothing is written or handed over (lines 122-126). -/
noncomputable def buildFull (y : Bld) (k : Kind) (es : List Entry) (S : Text → Option Bytes) : Option (Option Given × List (Text × Node)) :=
  match S (idName k.name), S (objName k.name) with
  | some bi, some bo => (readFile bo).bind (fun j => (buildVal y k.cls es ⟨bi, bo⟩).bind (fun r => (rootOf r.2.2).bind (fun d =>
      (helpIn y.win k.name S j r.1 k.help).bind (fun h => (codesIn y.win false k.name S j r.1 k.codes).bind (fun c =>
        (infoIn y.win j r.1 k.info).map (fun i =>
          (some ⟨r.1, r.2.1, .str r.1⟩,
           written (h ++ blobsIn S r.1 k.blobs ++ (r.1, some (.file (braceFile y.win d))) :: c ++ i))))))))
  | _, _ => some (none, [])

/-- the files only -/
noncomputable def buildAll (y : Bld) (k : Kind) (es : List Entry) (S : Text → Option Bytes) : Option (List (Text × Node)) :=
  (buildFull y k es S).map (·.2)

/-! ### objects kept inside their parent -/

/-- decode_internal_include: MetaDataObject/core/IncludeSimple.py:19-31 -/
noncomputable def innerAll (x : Ext) (k : Kind) (F : Text → Option Node) (v : Val) : Option (Info × List (Place Bytes)) :=
  (extractVal x k.cls none [] v).bind (fun r => (partsOut x.win k F r.1.uuid).bind (fun p =>
    (extractVal x k.cls none (written p.1) v).map (fun q =>
      (q.1, p.2 ++ [(idName k.name, some q.2.2.id), (objName k.name, some q.2.2.obj)]))))

/-- encode of such an object: MetaDataObject/__init__.py:114-168 with MetaDataObject/core/IncludeSimple.py:36-45: there is no file of the object
itself, the data are handed to the parent -/
noncomputable def innerFull (y : Bld) (k : Kind) (S : Text → Option Bytes) : Option (Option Given × List (Text × Node)) :=
  match S (idName k.name), S (objName k.name) with
  | some bi, some bo => (readFile bo).bind (fun j => (buildVal y k.cls [] ⟨bi, bo⟩).bind (fun r =>
      (codesIn y.win false k.name S j r.1 k.codes).map (fun c => (some ⟨r.1, r.2.1, r.2.2⟩, written c))))
  | _, _ => some (none, [])

/-! ### the classes -/

/-- a row of the table -/
def kind (name : String) (rest : List Nat) (includes : Bool) (codes : List (String × String)) (help : Option String)
    (blobs : List (String × String)) (info : Option String) : Kind :=
  ⟨name.toList, { rest := rest, includes := includes }, codes.map (fun p => (p.1.toList, p.2.toList)), help.map String.toList,
    blobs.map (fun p => (p.1.toList, p.2.toList)), info.map String.toList⟩

/-- predefined_file_number: Container.py:6, 27-32 -/
def predefined (s : String) : String × String := (s, "Предустановленные данные.bin")

/-- DataProcessor.py:17-47 -/
def processor : Cls where
  rest := [3, 1]
  includes := true
  ids := [("manager_uuid1", 1), ("manager_uuid2", 2), ("manager_uuid3", 7), ("manager_uuid4", 8)].map (fun p => (p.1.toList, p.2))
  stamp := true

/-- the classes of /repo/src/v8unpack/MetaDataObject/*.py that are Containers or Simples without more files than here; the default of the
header is `header_data[0][1][1]`, the default of the modules `{'obj': 0}` (MetaObject/__init__.py:14, 44-46) -/
def kinds : List Kind :=
  [kind "AccumulationRegister" [13, 1] true [("mgr", "2"), ("obj", "1")] (some "0") [predefined "3"] none,
   kind "Bot" [1] false [("obj", "1")] none [] none,
   kind "BusinessProcess" [1] true [("obj", "6"), ("mgr", "8")] (some "5") [("7", "Карта маршрута.bin")] none,
   kind "CalculationRegister" [15, 1] true [("obj", "1"), ("mgr", "2")] (some "0") [] none,
   kind "CalculationRegisterRecalculations" [7, 1] true [("obj", "0")] none [] none,
   kind "Catalog" [9, 1] true [("mgr", "3"), ("obj", "0")] (some "1") [predefined "1c"] none,
   kind "ChartOfAccounts" [15, 1] true [("obj", "14"), ("mgr", "15")] (some "5") [predefined "9"] none,
   kind "ChartOfCalculationTypes" [1, 1] true [("obj", "0"), ("mgr", "3")] (some "1") [predefined "2"] none,
   kind "ChartOfCharacteristicType" [13, 1] true [("mgr", "16"), ("obj", "15")] (some "5") [predefined "7"] none,
   kind "CommandGroup" [6] false [("obj", "0")] none [] none,
   kind "CommonAttribute" [1, 1, 1] false [("obj", "0")] none [] none,
   kind "CommonCommand" [1, 2, 9] false [("obj", "2")] (some "1") [] none,
   kind "CommonModule" [1] false [("obj", "0")] none [] none,
   kind "Constant" [1, 1, 1] false [("mgr", "1"), ("obj", "0")] none [] none,
   { kind "DataProcessor" [3, 1] true [("mgr", "2"), ("obj", "0")] (some "1") [] none with cls := processor },
   kind "DefinedType" [3] false [("obj", "0")] none [] none,
   kind "Document" [9, 1] true [("obj", "0"), ("mgr", "2")] (some "1") [] none,
   kind "DocumentJournal" [3, 1] true [("mgr", "1")] (some "0") [] none,
   kind "DocumentNumerators" [1] false [("obj", "0")] none [] none,
   kind "Enum" [5, 1] true [("obj", "0")] none [] none,
   kind "EventSubscription" [1] false [] none [("0", "EventSubscription.0.c1brace")] none,
   kind "ExchangePlan" [12] true [("obj", "2"), ("mgr", "3")] (some "0") [] (some "1"),
   kind "ExternalDataSource" [1, 1] true [("obj", "0")] none [] none,
   kind "ExternalDataSourceCube" [1, 1] true [("obj", "2"), ("mgr", "1")] none [] none,
   kind "ExternalDataSourceTable" [1, 1] true [("obj", "0")] none [] none,
   kind "FilterCriterion" [5, 1] true [("obj", "0")] none [] none,
   kind "FunctionalOption" [1] false [("obj", "0")] none [] none,
   kind "FunctionalOptionsParameter" [1] false [("obj", "0")] none [] none,
   kind "HTTPService" [2] true [("obj", "0")] none [] none,
   kind "InformationRegister" [15, 1] true [("mgr", "2"), ("obj", "1")] (some "0") [] none,
   kind "IntegrationService" [1] true [("obj", "0")] none [] none,
   kind "Interface" [2] false [] none [("0", "Interface.0.c1brace")] none,
   kind "Language" [1] false [("obj", "0")] none [] none,
   kind "Report" [3, 1] true [("mgr", "2"), ("obj", "0")] (some "1") [] none,
   kind "Role" [1] false [] none [("0", "Role.0.c1brace")] none,
   kind "ScheduledJob" [1] false [] none [("0", "ScheduledJob.0.c1brace")] none,
   kind "Sequences" [7, 1] true [("obj", "0")] none [] none,
   kind "SessionParameter" [1, 1] false [("obj", "0")] none [] none,
   kind "SettingsStorage" [1, 1] true [("mgr", "8")] none [] none,
   kind "Style" [1] false [] none [("0", "Style.0.c1brace")] none,
   kind "StyleItem" [3] false [("obj", "0")] none [] none,
   kind "Subsystem" [1] true [] (some "0") [] (some "1"),
   kind "Task" [1] true [("obj", "6"), ("mgr", "7")] (some "5") [] none,
   kind "WebService" [2] true [("obj", "0")] none [] none,
   kind "XDTOPackage" [1] false [] none [("0", "XDTOPackage.bin")] none]

/-- the classes of /repo/src/v8unpack/MetaDataObject/*Command.py that are IncludeSimples: MetaDataObject/core/IncludeSimple.py:6, 33-35 -/
def innerKinds : List Kind :=
  ["BusinessProcessCommand", "CatalogCommand", "ChartOfAccountsCommand", "ChartOfCalculationTypesCommand", "ChartOfCharacteristicTypeCommand",
   "DataProcessorCommand", "DocumentCommand", "EnumCommand", "ExchangePlanCommand", "ExternalDataSourceCubeCommand",
   "ExternalDataSourceTableCommand", "FilterCriterionCommand", "TaskCommand"].map (fun n => kind n [3, 2, 9] false [("obj", "2")] none [] none) ++
  ["AccountingRegisterCommand", "AccumulationRegisterCommand", "CalculationRegisterCommand", "DocumentJournalCommand",
   "InformationRegisterCommand", "ReportCommand"].map (fun n => kind n [2, 9] false [("obj", "2")] none [] none)

end V8.Store
