import Verif.Store
import Verif.Leaf
import Verif.FormObj
/-
Model of a tree of metadata objects, from the container folder to the tree of source folders and back:
/repo/src/v8unpack/decoder.py:79-107 (Decoder.decode, decode_include), 115-184 (Decoder.encode, encode_include),
/repo/src/v8unpack/MetaObject/__init__.py:64-126 (decode_includes), 191-221 (encode_includes, encode_get_include_obj),
/repo/src/v8unpack/MetaDataObject/__init__.py:47-61 (decode), 114-175 (encode), 199-203 (set_write_decode_mode),
/repo/src/v8unpack/helper.py:226-262 (run_in_pool_encode_include).

That every object of the tree is handled exactly once, children before parents and in any order of the workers, is Verif/Encode.lean and
Verif/DecodeLoop.lean (C26, C48); here the recursion is direct, and the order in which the nested objects of an object are delivered is the
parameter `ord`.
-/
namespace V8.Tree
open V8.Brace V8.Enc V8.JsonText V8.Header V8.Nested V8.Object V8.Store
open V8.Leaf (Leaf versionAt leafOut leafHas leafBack)
open V8.FormObj (FCls Lim formOut formHas formBack)

/-- a class of objects: both directions for one object, without its nested objects -/
structure Handler where
  /-- decode or decode_internal_include: the object is given by what stands in the list of its parent; the first argument is parent_container_uuid
  (MetaDataObject/__init__.py:49-53) -/
  out : Option Text → (Text → Option Node) → Val → Option (Info × List Obj × List (Place Node))
  /-- the JSON files are there: MetaDataObject/__init__.py:122-126 -/
  has : (Text → Option Node) → Bool
  /-- encode_includes looks for nested objects (MetaDataObject/core/Simple.py:17-18: it does not) -/
  kids : Bool
  /-- encode, with parent_container_uuid (MetaDataObject/__init__.py:133), the parent_id and what the nested objects delivered -/
  back : Option Text → Text → List Entry → (Text → Option Node) → Option (Option Given × List (Text × Node))
  /-- container_uuid, which becomes parent_container_uuid of the nested objects, during extraction: MetaObject/__init__.py:35-37, 56, 108 -/
  con : (Text → Option Node) → Val → Option Text
  /-- the same during a build, from the source folder: MetaDataObject/__init__.py:131-132, MetaObject/__init__.py:207 -/
  conBack : (Text → Option Node) → Option Text

mutual
/-- the source folder of an object: its files, and the folders `type/name` of its nested objects -/
inductive Dir where
  | mk (files : List (Place Node)) (subs : Subs)
inductive Subs where
  | nil
  | cons (ty nm : Text) (d : Dir) (rest : Subs)
end

/-- the folders of a list -/
def Subs.ofList : List (Text × Text × Dir) → Subs
  | [] => .nil
  | (ty, nm, d) :: r => .cons ty nm d (ofList r)

def Subs.isNil : Subs → Bool
  | .nil => true
  | .cons _ _ _ _ => false

/-- the nested objects: MetaObject/__init__.py:101-124, decoder.py:86-89 -/
def extractKids (f : Text → Val → Option (Info × Dir)) : List Obj → Option (List (Text × Text × Dir))
  | [] => some []
  | o :: r => (f o.ty o.orig).bind (fun a => (extractKids f r).map (fun b => (o.ty, a.1.name, a.2) :: b))

/-- an object with all its nested objects; `none` is an exception.  The depth is limited by `n` (an object that contains itself is taken apart
without end).  Two nested objects of one type and one name have the same folder: os.makedirs fails (helper.py:402-409,
MetaDataObject/__init__.py:199-203). -/
def extractTree (K : Text → Option Handler) (F : Text → Option Node) : Nat → Option Text → Text → Val → Option (Info × Dir)
  | 0, _, _, _ => none
  | n + 1, con, ty, v => (K ty).bind (fun h => (h.out con F v).bind (fun r => (extractKids (extractTree K F n (h.con F v)) r.2.1).bind (fun subs =>
      if (subs.map (fun s => (s.1, s.2.1))).Nodup then some (r.1, .mk r.2.2 (.ofList subs)) else none)))

/-- `obj_data` as a truth value: helper.py:245 -/
def truthy : Val → Bool
  | .none => false
  | .str s => !s.isEmpty
  | .list l => !l.isEmpty

/-- what the parent receives: helper.py:237-253 -/
def entries (ty : Text) : Option Given → List Entry
  | none => []
  | some g => if truthy g.data then [⟨ty, g.uu, g.nm, g.data⟩] else []

/-- current_obj_id: MetaDataObject/__init__.py:140 -/
def idOf (parent ty nm : Text) : Text := parent ++ '/' :: ty ++ '/' :: nm

mutual
/-- an object with all its nested objects: what it delivers to its parent and the files written.  `ord` is the order of delivery.
An object with nested folders none of which delivers anything: include_index.pop fails (decoder.py:141). -/
def buildDir (K : Text → Option Handler) (ord : Text → List Entry → List Entry) (con : Option Text) (parent ty nm : Text) :
    Dir → Option (List Entry × List (Text × Node))
  | .mk files subs => match K ty with
    | none => none
    | some h =>
      if h.has (folder files) = false then some ([], [])
      else if h.kids = false ∨ subs.isNil = true then (h.back con parent [] (folder files)).map (fun b => (entries ty b.1, b.2))
      else (buildSubs K ord (h.conBack (folder files)) (idOf parent ty nm) subs).bind (fun r =>
        if r.1 = [] then none
        else (h.back con parent (ord (idOf parent ty nm) r.1) (folder files)).map (fun b => (entries ty b.1, r.2 ++ b.2)))
/-- the nested objects -/
def buildSubs (K : Text → Option Handler) (ord : Text → List Entry → List Entry) (con : Option Text) (parent : Text) :
    Subs → Option (List Entry × List (Text × Node))
  | .nil => some ([], [])
  | .cons ty nm d r => (buildDir K ord con parent ty nm d).bind (fun a => (buildSubs K ord con parent r).map (fun b => (a.1 ++ b.1, a.2 ++ b.2)))
end

/-- the classes of the tool -/
inductive Class where
  | file (k : Kind)
  /-- the place of the header depends on the number at `header_data[0][1][0]`: the one of `k` if it is above `n`, else `rest` -/
  | pick (n : Int) (k : Kind) (rest : List Nat)
  | inner (k : Kind)
  | leaf (t : Leaf)
  | form (f : FCls)
deriving DecidableEq

/-- the files of an object with the raw data `root`: AccountingRegister.py:12-17 -/
def Class.kindAt : Class → Val → Option Kind
  | .file k, _ => some k
  | .pick n k rest, root => ((versionAt root).bind V8.Dec.parseInt).map (fun v => if v > n then k else { k with cls := { k.cls with rest := rest } })
  | _, _ => none

/-- both JSON files of a class are there -/
def hasBoth (k : Kind) (S : Text → Option Node) : Bool := (fileIn S (idName k.name)).isSome && (fileIn S (objName k.name)).isSome

/-- the classes whose identifier their forms refer to (FormContainer: MetaDataObject/core/Container.py:64-67): Catalog.py:4, Document.py:4,
DataProcessor.py:9 -/
def containers : List Text := ["Catalog", "Document", "DataProcessor"].map String.toList

/-- `header_data[0][1][1]`: MetaDataObject/core/Container.py:66-67.  Simplification: a value that is no text counts as None. -/
def conAt (root : Val) : Option Text := (V8.Product.getAt root [0, 1, 1]).bind (fun v => match v with
  | .str s => some s
  | _ => none)

/-- container_uuid during extraction, from the raw data of the object: MetaObject/__init__.py:35-37, 56 -/
noncomputable def conOut (k : Kind) (F : Text → Option Node) : Val → Option Text
  | .str u => if k.name ∈ containers then match F u with
      | some (.file b) => (braceRead b).bind (fun d => conAt (rootVal d))
      | _ => none
    else none
  | _ => none

/-- container_uuid during a build, from the two JSON files: MetaDataObject/__init__.py:122-132 (after the identifiers are put back) -/
noncomputable def conIn (k : Kind) (ver : Text) (S : Text → Option Node) : Option Text :=
  if k.name ∈ containers then ((fileIn S (idName k.name)).bind readFile).bind (fun jid => ((fileIn S (objName k.name)).bind readFile).bind (fun j =>
    (treeAt j "header".toList).bind (fun h => (showIds k.cls (some ver) jid h).bind conAt)))
  else none

/-- a class as a handler; `ver` is options['obj_version'] -/
noncomputable def handlerOf (g : Lim) (x : Ext) (y : Bld) (ver : Text) : Class → Handler
  | .file k =>
    { out := fun _ F v => match v with
        | .str u => (extractAll x k (some ver) F u).map (fun r => (r.1, r.2.1, nodes r.2.2))
        | _ => none
      has := hasBoth k
      kids := k.cls.includes
      back := fun _ parent es S => buildFull { y with parent := parent, ver := some ver } k es (fileIn S)
      con := conOut k
      conBack := conIn k ver }
  | .pick n k rest =>
    { out := fun _ F v => match v with
        | .str u => match F u with
          | some (.file b) => (braceRead b).bind (fun d => ((Class.pick n k rest).kindAt (rootVal d)).bind (fun k' =>
              (extractAll x k' (some ver) F u).map (fun r => (r.1, r.2.1, nodes r.2.2))))
          | _ => none
        | _ => none
      has := hasBoth k
      kids := k.cls.includes
      back := fun _ parent es S => ((fileIn S (objName k.name)).bind readFile).bind (fun j => (treeAt j "header".toList).bind (fun h =>
        ((Class.pick n k rest).kindAt h).bind (fun k' => buildFull { y with parent := parent, ver := some ver } k' es (fileIn S))))
      con := fun _ _ => none
      conBack := fun _ => none }
  | .inner k =>
    { out := fun _ F v => match v with
        | .list l => (innerAll x k F (.list l)).map (fun r => (r.1, [], nodes r.2))
        | _ => none
      has := hasBoth k
      kids := true
      back := fun _ parent _ S => innerFull { y with parent := parent, ver := some ver } k (fileIn S)
      con := fun _ _ => none
      conBack := fun _ => none }
  | .leaf t =>
    { out := fun _ F v => match v with
        | .str u => (leafOut x ver t F u).map (fun r => (r.1, [], r.2))
        | _ => none
      has := leafHas t
      kids := false
      back := fun _ parent _ S => leafBack x { y with parent := parent, ver := some ver } t S
      con := fun _ _ => none
      conBack := fun _ => none }
  | .form f =>
    { out := fun con F v => match v with
        | .str u => (formOut x g con f F u).map (fun r => (r.1, [], r.2))
        | _ => none
      has := formHas f
      kids := false
      back := fun con parent _ S => formBack { y with parent := parent, ver := some ver } g con f S
      con := fun _ _ => none
      conBack := fun _ => none }

/-- AccountingRegister.py:4-17 -/
def accounting : Class :=
  .pick 21 (kind "AccountingRegister" [16, 1] true [("obj", "6"), ("mgr", "7")] (some "5") [] none) [15, 1]

/-- the classes of Verif/Leaf.lean -/
def leaves : List Leaf := [.picture, .template, .commonTemplate, .reference]

/-- the class of a type: helper.py:275-288 -/
def classOf (name : Text) : Option Class :=
  match kinds.find? (fun k => decide (k.name = name)) with
  | some k => some (.file k)
  | none => match innerKinds.find? (fun k => decide (k.name = name)) with
    | some k => some (.inner k)
    | none => match leaves.find? (fun t => decide (t.name = name)) with
      | some t => some (.leaf t)
      | none => if name = "AccountingRegister".toList then some accounting
        else (V8.FormObj.forms.find? (fun f => decide (f.name = name))).map .form

/-- MetaDataTypes: metadata_types.py:14-108 -/
def metaTypes : List (Text × Text) :=
  [("2deed9b8-0056-4ffe-a473-c20a6c32a0bc", "AccountingRegister"),
   ("7162da60-f7fe-4d78-ad5d-e31700f9af18", "AccountingRegisterCommand"),
   ("d3b5d6eb-4ea2-4610-a3e2-624d4e815934", "AccountingRegisterForm"),
   ("b64d9a40-1642-11d6-a3c7-0050bae0a776", "AccumulationRegister"),
   ("99f328af-a77f-4572-a2d8-80ed20c81890", "AccumulationRegisterCommand"),
   ("b64d9a44-1642-11d6-a3c7-0050bae0a776", "AccumulationRegisterForm"),
   ("6e6dc072-b7ac-41e7-8f88-278d25b6da2a", "Bot"),
   ("fcd3404e-1523-48ce-9bc0-ecdb822684a1", "BusinessProcess"),
   ("7a3e533c-f232-40d5-a932-6a311d2480bf", "BusinessProcessCommand"),
   ("3f7a8120-b71a-4265-98bf-4d9bc09b7719", "BusinessProcessForm"),
   ("f2de87a8-64e5-45eb-a22d-b3aedab050e7", "CalculationRegister"),
   ("acdf0f11-2d59-4e37-9945-c6721871a8fe", "CalculationRegisterCommand"),
   ("a2cb086c-db98-43e4-a1a9-0760ab048f8d", "CalculationRegisterForm"),
   ("274bf899-db0e-4df6-8ab5-67bf6371ec0b", "CalculationRegisterRecalculations"),
   ("cf4abea6-37b2-11d4-940f-008048da11f9", "Catalog"),
   ("4fe87c89-9ad4-43f6-9fdb-9dc83b3879c6", "CatalogCommand"),
   ("fdf816d2-1ead-11d5-b975-0050bae0a95d", "CatalogForm"),
   ("238e7e88-3c5f-48b2-8a3b-81ebbecb20ed", "ChartOfAccounts"),
   ("0df30176-6865-4787-9fc8-609eb144174f", "ChartOfAccountsCommand"),
   ("5372e285-03db-4f8c-8565-fe56f1aea40e", "ChartOfAccountsForm"),
   ("30b100d6-b29f-47ac-aec7-cb8ca8a54767", "ChartOfCalculationTypes"),
   ("2e90c75b-2f0c-4899-a7d4-5426eaefc96e", "ChartOfCalculationTypesCommand"),
   ("a7f8f92a-7a4b-484b-937e-42d242e64144", "ChartOfCalculationTypesForm"),
   ("82a1b659-b220-4d94-a9bd-14d757b95a48", "ChartOfCharacteristicType"),
   ("95b5e1d4-abfa-4a16-818d-a5b07b7d3f73", "ChartOfCharacteristicTypeCommand"),
   ("eb2b78a8-40a6-4b7e-b1b3-6ca9966cbc94", "ChartOfCharacteristicTypeForm"),
   ("1c57eabe-7349-44b3-b1de-ebfeab67b47d", "CommandGroup"),
   ("15794563-ccec-41f6-a83c-ec5f7b9a5bc1", "CommonAttribute"),
   ("2f1a5187-fb0e-4b05-9489-dc5dd6412348", "CommonCommand"),
   ("07ee8426-87f1-11d5-b99c-0050bae0a95d", "CommonForm"),
   ("0fe48980-252d-11d6-a3c7-0050bae0a776", "CommonModule"),
   ("7dcd43d9-aca5-4926-b549-1842e6a4e8cf", "CommonPicture"),
   ("0c89c792-16c3-11d5-b96b-0050bae0a95d", "CommonTemplate"),
   ("9cd510cd-abfc-11d4-9434-004095e12fc7", "Configuration"),
   ("0195e80c-b157-11d4-9435-004095e12fc7", "Constant"),
   ("bf845118-327b-4682-b5c6-285d2a0eb296", "DataProcessor"),
   ("45556acb-826a-4f73-898a-6025fc9536e1", "DataProcessorCommand"),
   ("c045099e-13b9-4fb6-9d50-fca00202971e", "DefinedType"),
   ("061d872a-5787-460e-95ac-ed74ea3a3e84", "Document"),
   ("b544fc6a-2ba3-4885-8fb2-cb289fb6d65e", "DocumentCommand"),
   ("fb880e93-47d7-4127-9357-a20e69c17545", "DocumentForm"),
   ("4612bd75-71b7-4a5c-8cc5-2b0b65f9fa0d", "DocumentJournal"),
   ("a49a35ce-120a-4c80-8eea-b0618479cd70", "DocumentJournalCommand"),
   ("ec81ad10-ca07-11d5-b9a5-0050bae0a95d", "DocumentJournalForm"),
   ("36a8e346-9aaa-4af9-bdbd-83be3c177977", "DocumentNumerators"),
   ("f6a80749-5ad7-400b-8519-39dc5dff2542", "Enum"),
   ("6d8d73a7-ba29-401d-9032-3872ec2d6433", "EnumCommand"),
   ("33f2e54b-37ce-4a7a-a569-b648d7aa4634", "EnumForm"),
   ("4e828da6-0f44-4b5b-b1c0-a2b3cfe7bdcc", "EventSubscription"),
   ("857c4a91-e5f4-4fac-86ec-787626f1c108", "ExchangePlan"),
   ("d5207c64-11d5-4d46-bba2-55b7b07ff4eb", "ExchangePlanCommand"),
   ("87c509ab-3d38-4d67-b379-aca796298578", "ExchangePlanForm"),
   ("c3831ec8-d8d5-4f93-8a22-f9bfae07327f", "ExternalDataProcessor"),
   ("e41aff26-25cf-4bb6-b6c1-3f478a75f374", "ExternalReport"),
   ("5274d9fc-9c3a-4a71-8f5e-a0db8ab23de5", "ExternalDataSource"),
   ("2bb208ca-e441-4023-9ab9-32a7807a85d0", "ExternalDataSourceCube"),
   ("3448e506-5add-4fce-a604-7305466b2d8e", "ExternalDataSourceCubeForm"),
   ("4ee40ec7-3469-439f-adb4-aa26ce2d3ec3", "ExternalDataSourceCubeCommand"),
   ("e3403acd-1c95-421b-87e4-4dfa29d38b52", "ExternalDataSourceTable"),
   ("17816ebc-4068-496e-adc4-8879945a832f", "ExternalDataSourceTableForm"),
   ("5bb6f09e-5d80-41f6-8070-9faa4d15b69b", "ExternalDataSourceTableCommand"),
   ("3e7bfcc0-067d-11d6-a3c7-0050bae0a776", "FilterCriterion"),
   ("23fa3b84-220a-40e9-8331-e588bed87f7d", "FilterCriterionCommand"),
   ("00867c40-06b1-11d6-a3c7-0050bae0a776", "FilterCriterionForm"),
   ("d5b0e5ed-256d-401c-9c36-f630cafd8a62", "Form"),
   ("ec6bb5e5-b7a8-4d75-bec9-658107a699cf", "FormAttribute"),
   ("af547940-3268-434f-a3e7-e47d6d2638c3", "FunctionalOption"),
   ("30d554db-541e-4f62-8970-a1c6dcfeb2bc", "FunctionalOptionsParameter"),
   ("0fffc09c-8f4c-47cc-b41c-8d5c5a221d79", "HTTPService"),
   ("13134201-f60b-11d5-a3c7-0050bae0a776", "InformationRegister"),
   ("b44ba719-945c-445c-8aab-1088fa4df16e", "InformationRegisterCommand"),
   ("13134204-f60b-11d5-a3c7-0050bae0a776", "InformationRegisterForm"),
   ("bf3420b0-f6f9-41a0-b83a-fe9d4ab0b65d", "IntegrationService"),
   ("39bddf6a-0c3c-452b-921c-d99cfa1c2f1b", "Interface"),
   ("9cd510ce-abfc-11d4-9434-004095e12fc7", "Language"),
   ("631b75a0-29e2-11d6-a3c7-0050bae0a776", "Report"),
   ("e7ff38c0-ec3c-47a0-ae90-20c73ca72246", "ReportCommand"),
   ("a3b368c0-29e2-11d6-a3c7-0050bae0a776", "ReportForm"),
   ("09736b02-9cac-4e3f-b4f7-d3e9576ab948", "Role"),
   ("11bdaf85-d5ad-4d91-bb24-aa0eee139052", "ScheduledJob"),
   ("bc587f20-35d9-11d6-a3c7-0050bae0a776", "Sequences"),
   ("24c43748-c938-45d0-8d14-01424a72b11e", "SessionParameter"),
   ("46b4cd97-fd13-4eaa-aba2-3bddd7699218", "SettingsStorage"),
   ("b8533c0c-2342-4db3-91a2-c2b08cbf6b23", "SettingsStorageForm"),
   ("3e5404af-6ef8-4c73-ad11-91bd2dfac4c8", "Style"),
   ("58848766-36ea-4076-8800-e91eb49590d7", "StyleItem"),
   ("37f2fa9a-b276-11d4-9435-004095e12fc7", "Subsystem"),
   ("2bcef0d1-0981-11d6-b9b8-0050bae0a95d", "TabularSectionAttribute"),
   ("3e63355c-1378-4953-be9b-1deb5fb6bec5", "Task"),
   ("f27c2152-a2c9-4c30-adb1-130f5eb2590f", "TaskCommand"),
   ("3f58cbfb-4172-4e54-be49-561a579bb38b", "TaskForm"),
   ("3daea016-69b7-4ed4-9453-127911372fe6", "Template"),
   ("8657032e-7740-4e1d-a3ba-5dd6e8afb78f", "WebService"),
   ("d26096fb-7a5d-4df9-af63-47d04771fa9b", "WSReference"),
   ("cc9df798-7c94-4616-97d2-7aa0b7bc515e", "XDTOPackage")].map (fun p => (p.1.toList, p.2.toList))

/-- `header[1][2]`: helper.py:118 -/
def uuidAt (h : List Val) : Option Text := (listAt h 1).bind (fun l => strAt l 2)

/-- where the header of an object stands -/
def headerIn (c : Cls) (v : Val) : List Val := match V8.Product.getAt v c.path with
  | some (.list h) => h
  | _ => []

/-- MetaDataTypes (metadata_types.py:14-108) as a list of identifiers and names, with the classes `C`.  `ident` is the identifier of the data
of an inner object; that decode_internal_include can fail in other ways is in `extractTree`. -/
def envOf (types : List (Text × Text)) (C : Text → Option Class) : Env where
  nameOf := fun u => (types.find? (fun p => decide (p.1 = u))).map (·.2)
  uuidOf := fun n => (types.find? (fun p => decide (p.2 = n))).map (·.1)
  handler := fun ty => match C ty with
    | none => .missing
    | some (.file _) => .outside
    | some (.pick _ _ _) => .outside
    | some (.leaf _) => .outside
    | some (.form _) => .outside
    | some (.inner _) => .inside
  ident := fun ty v => match C ty with
    | some (.inner k) => uuidAt (headerIn k.cls v)
    | _ => none

end V8.Tree
