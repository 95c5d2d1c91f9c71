import Verif.Store
import Verif.OFormAuto
import Verif.Sort
/-
Model of the file `<form>.elem.json`, the elements of a form in the sources, both ways:
/repo/src/v8unpack/MetaDataObject/Form/FormCore.py:201-219 (write_decode_object),
/repo/src/v8unpack/MetaDataObject/Form/FormElements4/FormElements4.py:97-109 (encode),
/repo/src/v8unpack/MetaDataObject/Form/FormElements27/FormElements27.py:99-106 (encode).
-/
namespace V8.FormJson
open V8.Brace V8.JsonText V8.Object
open V8.Store hiding Kind
open V8.Form (Kind PropRec Rec Child idx nameAt)

/-! ### both kinds of forms -/

/-- a list, or `null` if there was none to take out -/
def listJson {α : Type} (f : α → JT) : Option (List α) → JT
  | none => .null
  | some l => .arr (l.map f)

/-- all entries of a list -/
def allOf {α β : Type} (f : α → Option β) : List α → Option (List β)
  | [] => some []
  | a :: r => (f a).bind (fun b => (allOf f r).map (fun l => b :: l))

/-- a list, or `null`; the outer `none` is an exception -/
def listOf {α : Type} (f : JT → Option α) : JT → Option (Option (List α))
  | .null => some none
  | .arr l => (allOf f l).map some
  | _ => none

/-- an entry that is a list or `null` -/
def listAt {α : Type} (f : JT → Option α) (j : JT) (k : Text) : Option (Option (List α)) := (entry j k).bind (listOf f)

/-- `data['raw']` as a list -/
def rawAt (j : JT) : Option (List Val) := match treeAt j "raw".toList with
  | some (.list l) => some l
  | _ => none

/-- `data.get(key)`, a text if it is there; the outer `none` is an exception -/
def wordAt (j : JT) (k : Text) : Option (Option Text) := match entry j k with
  | none => some none
  | some (.str s) => some (some s)
  | some _ => none

/-- an entry that is left out if there is nothing -/
def wordJson (k : Text) : Option Text → List (Text × JT)
  | none => []
  | some s => [(k, .str s)]

/-- a command of a managed form (FormElements4/FormElement.py:369-376) or an attribute of an ordinary one (FormElements27/FormElement.py:147-157) -/
def recJson (r : Rec) : JT := .obj [("name".toList, .str r.name), ("id".toList, jsonOf r.id), ("raw".toList, jsonOf r.raw)]

def recOf (j : JT) : Option Rec :=
  (textAt j "name".toList).bind (fun n => (treeAt j "id".toList).bind (fun i => (treeAt j "raw".toList).map (fun v => ⟨n, i, v⟩)))

/-! ### managed forms -/

/-- a parameter: FormElements4/FormElement.py:241-246 -/
def paramJson (r : Rec) : JT := .obj [("name".toList, .str r.name), ("raw".toList, jsonOf r.raw)]

def paramOf (j : JT) : Option Rec := (textAt j "name".toList).bind (fun n => (treeAt j "raw".toList).map (fun v => ⟨n, .none, v⟩))

/-- a nested attribute: FormElements4/FormElement.py:344-350 -/
def childJson (c : Child) : JT := .obj [("name".toList, .str c.name), ("id".toList, jsonOf c.id), ("raw".toList, jsonOf c.raw)]

def childOf (j : JT) : Option Child :=
  (textAt j "name".toList).bind (fun n => (treeAt j "id".toList).bind (fun i => (treeAt j "raw".toList).map (fun v => ⟨n, i, v⟩)))

/-- the nested attributes, if there are any: FormElements4/FormElement.py:331-337 -/
def childEntry : List Child → List (Text × JT)
  | [] => []
  | c :: r => [("child".toList, .arr ((c :: r).map childJson))]

/-- an attribute: FormElements4/FormElement.py:318-342 -/
def propJson (p : PropRec) : JT :=
  .obj ([("name".toList, .str p.name), ("id".toList, jsonOf p.id), ("raw".toList, jsonOf (.list p.raw))] ++ childEntry p.child)

/-- `data.get('child')`: FormElements4/FormElement.py:358 -/
def childrenAt (j : JT) : Option (List Child) := match entry j "child".toList with
  | none => some []
  | some v => (listOf childOf v).map (fun l => l.getD [])

def propOf (j : JT) : Option PropRec :=
  (textAt j "name".toList).bind (fun n => (treeAt j "id".toList).bind (fun i => (rawAt j).bind (fun r => (childrenAt j).map (fun c => ⟨n, i, r, c⟩))))

/-- the names of the kinds: FormElements4/FormElement.py:21-27, 92 -/
def label : Kind → Text
  | .field => "Field".toList
  | .button => "Button".toList
  | .decoration => "Decoration".toList
  | .group => "Group".toList
  | .table => "Table".toList
  | .itemAddition => "ItemAddition".toList

/-- `FormItemTypes[name]`: FormElements4/FormElement.py:154; `none` is KeyError -/
def kindNamed (s : Text) : Option Kind := Kind.all.find? (fun k => decide (label k = s))

mutual
/-- an element: FormElements4/FormElement.py:90-93, Group.py:30, Table.py:38 -/
def nodeJson : V8.Form.Node → JT
  | .mk name k child => .obj ([("name".toList, .str name), ("type".toList, .str (label k))] ++
      (match child with
        | [] => if k.child.isSome then [("child".toList, .null)] else []
        | n :: r => [("child".toList, .arr (nodeJson n :: nodesJson r))]))
def nodesJson : List V8.Form.Node → List JT
  | [] => []
  | n :: r => nodeJson n :: nodesJson r
end

mutual
/-- an element of the tree: FormElements4/FormElement.py:152-163, Group.py:37-40, Table.py:44-47 -/
def nodeOf : JT → Option V8.Form.Node
  | .obj d => match textAt (.obj d) "name".toList, (textAt (.obj d) "type".toList).bind kindNamed, kidsOf d with
    | some n, some k, some c => some (.mk n k c)
    | _, _, _ => none
  | _ => none
/-- `data['child']`, nothing if it is not there -/
def kidsOf : List (Text × JT) → Option (List V8.Form.Node)
  | [] => some []
  | (k, v) :: r => if k = "child".toList then kidList v else kidsOf r
def kidList : JT → Option (List V8.Form.Node)
  | .null => some []
  | .arr l => nodesOf l
  | _ => none
def nodesOf : List JT → Option (List V8.Form.Node)
  | [] => some []
  | j :: r => (nodeOf j).bind (fun n => (nodesOf r).map (fun l => n :: l))
end

/-- the data of an element: FormElements4/FormElement.py:82-87 -/
def dataJson (d : V8.Form.Data) : JT :=
  .obj ([("raw".toList, jsonOf (.list d.raw)), ("ver".toList, .int 4)] ++ wordJson "ПутьКДанным".toList d.prop ++ wordJson "ИмяКоманды".toList d.command)

/-- the data of an element: FormElements4/FormElement.py:174-199, 225, 241-243 -/
def dataOf (j : JT) : Option V8.Form.Data :=
  (rawAt j).bind (fun r => (wordAt j "ПутьКДанным".toList).bind (fun p => (wordAt j "ИмяКоманды".toList).map (fun c => ⟨r, p, c⟩)))

/-- one entry of a dict -/
def pairOf {α : Type} (f : JT → Option α) (p : Text × JT) : Option (Text × α) := (f p.2).map (fun v => (p.1, v))

/-- an entry that is a dict -/
def dictAt {α : Type} (f : JT → Option α) (j : JT) (k : Text) : Option (List (Text × α)) := match entry j k with
  | some (.obj d) => allOf (pairOf f) d
  | _ => none

/-- `elements['tree']` -/
def treeOf {α : Type} (f : List JT → Option α) (j : JT) : Option α := match entry j "tree".toList with
  | some (.arr l) => f l
  | _ => none

/-- the file of a managed form: FormCore.py:211-218; of two elements with one path the dict has the last -/
def managedJson (s : V8.Form.Src) : JT :=
  .obj [("params".toList, listJson paramJson s.params), ("props".toList, listJson propJson s.props),
    ("commands".toList, listJson recJson s.commands), ("tree".toList, .arr (nodesJson s.tree)),
    ("data".toList, .obj (dictOf (s.data.map (fun p => (p.1, dataJson p.2)))))]

/-- reading it: FormElements4.py:100-107.  Simplification: a missing entry is an exception (in the code it is `None`, which is one only if the
entry is needed). -/
def managedOf (j : JT) : Option V8.Form.Src :=
  (listAt paramOf j "params".toList).bind (fun ps => (listAt propOf j "props".toList).bind (fun qs =>
    (listAt recOf j "commands".toList).bind (fun cs => (treeOf nodesOf j).bind (fun t =>
      (dictAt dataOf j "data".toList).map (fun d => ⟨qs, cs, ps, t, d⟩)))))

/-! ### ordinary forms -/

/-- the page of an element, None if there is none: Panel.py:36-42, 54.  Simplification: a page with the empty name is written as none. -/
def pageJson : Text → JT
  | [] => .null
  | c :: r => .str (c :: r)

def pageAt (j : JT) : Option Text := match entry j "page".toList with
  | some .null => some []
  | some (.str s) => some s
  | _ => none

mutual
/-- an element: Panel.py:47, 54, 93 -/
def onodeJson : V8.OForm.Node → JT
  | .mk name l page child => .obj ([("name".toList, .str name), ("type".toList, .str l), ("page".toList, pageJson page)] ++
      (match child with
        | [] => if l = V8.OForm.panelLabel then [("child".toList, .arr [])] else []
        | n :: r => [("child".toList, .arr (onodeJson n :: onodesJson r))]))
def onodesJson : List V8.OForm.Node → List JT
  | [] => []
  | n :: r => onodeJson n :: onodesJson r
end

mutual
/-- an element of the tree: Panel.py:401-403, 450-459, 323.  Simplification: a panel without the entry `child` counts as empty (in the code it is an
exception). -/
def onodeOf : JT → Option V8.OForm.Node
  | .obj d => match textAt (.obj d) "name".toList, textAt (.obj d) "type".toList, pageAt (.obj d), okidsOf d with
    | some n, some l, some p, some c => some (.mk n l p c)
    | _, _, _, _ => none
  | _ => none
def okidsOf : List (Text × JT) → Option (List V8.OForm.Node)
  | [] => some []
  | (k, v) :: r => if k = "child".toList then okidList v else okidsOf r
def okidList : JT → Option (List V8.OForm.Node)
  | .arr l => onodesOf l
  | _ => none
def onodesOf : List JT → Option (List V8.OForm.Node)
  | [] => some []
  | j :: r => (onodeOf j).bind (fun n => (onodesOf r).map (fun l => n :: l))
end

/-! with the option auto_include -/

mutual
/-- an element or a page with the option auto_include: Panel.py:47, 52, 93, 276-280 -/
def anodeJson : V8.OForm.Node → JT
  | .mk name l _ child => .obj ([("name".toList, .str name), ("type".toList, .str l)] ++
      (if l = V8.OForm.panelLabel ∨ l = V8.OAuto.pageLabel then [("child".toList, .arr (anodesJson child))] else []))
def anodesJson : List V8.OForm.Node → List JT
  | [] => []
  | n :: r => anodeJson n :: anodesJson r
end

mutual
/-- an element or a page of the tree: Panel.py:318, 323, 374, 408, 442-446.  Simplification: a panel or a page without the entry `child` counts as empty
(in the code it is an exception). -/
def anodeOf : JT → Option V8.OForm.Node
  | .obj d => match textAt (.obj d) "name".toList, textAt (.obj d) "type".toList, akidsOf d with
    | some n, some l, some c => some (.mk n l [] c)
    | _, _, _ => none
  | _ => none
def akidsOf : List (Text × JT) → Option (List V8.OForm.Node)
  | [] => some []
  | (k, v) :: r => if k = "child".toList then akidList v else akidsOf r
def akidList : JT → Option (List V8.OForm.Node)
  | .arr l => anodesOf l
  | _ => none
def anodesOf : List JT → Option (List V8.OForm.Node)
  | [] => some []
  | j :: r => (anodeOf j).bind (fun n => (anodesOf r).map (fun l => n :: l))
end

/-- the key of the page of an element, from the key of the element: Panel.py:45-52 -/
def pageKey (key : Text) (raw : List Val) : Text :=
  match ((V8.OForm.fromEnd raw 2).bind (nameAt · 1)).getD [] with
  | [] => key
  | c :: r => key.take (key.length - (c :: r).length - 1)

/-- an entry of the data: Panel.py:59-73 (an element), 255-256, 286-290 (a page), 292 (the pages of a panel); `ver` is 26 or 27 -/
def entryJson (ver : Int) (key : Text) : V8.OForm.Entry → JT
  | .elem raw prop => .obj ([("id".toList, jsonOf ((raw[1]?).getD .none)), ("ver".toList, .int ver), ("page".toList, .str (pageKey key raw)),
      ("raw".toList, jsonOf (.list raw))] ++ wordJson "prop".toList prop)
  | .page raw info => .obj [("ver".toList, .int ver), ("page_format_version".toList, jsonOf ((idx raw 0).getD .none)), ("raw".toList, jsonOf raw),
      ("info".toList, jsonOf (.list info))]
  | .pages names => .arr (names.map JT.str)

def nameOf : JT → Option Text
  | .str s => some s
  | _ => none

/-- the descriptions of a page: `page_data.get('info', [])`: Panel.py:365 -/
def infoAt (j : JT) : Option (List Val) := match entry j "info".toList with
  | none => some []
  | some v => match valOf v with
    | some (.list l) => some l
    | _ => none

/-- an entry of the data: Panel.py:362-365, 380-384, 418, FormElement.py:117-123; an entry is told to be a page by `page_format_version` (the code
does not tell, it takes what it needs) -/
def entryOf (j : JT) : Option V8.OForm.Entry := match j with
  | .arr l => (allOf nameOf l).map V8.OForm.Entry.pages
  | .obj d => match entry (.obj d) "page_format_version".toList with
    | some _ => (treeAt (.obj d) "raw".toList).bind (fun r => (infoAt (.obj d)).map (fun i => .page r i))
    | none => (rawAt (.obj d)).bind (fun r => (wordAt (.obj d) "prop".toList).map (fun p => .elem r p))
  | _ => none

/-- the file of an ordinary form: FormCore.py:33-38, 211-218; of two elements with one path the dict has the last -/
def ordinaryJson (ver : Int) (s : V8.OForm.Src) : JT :=
  .obj [("params".toList, .arr []), ("props".toList, listJson recJson s.attrs), ("commands".toList, .arr []), ("tree".toList, .arr (onodesJson s.tree)),
    ("data".toList, .obj (dictOf (s.data.map (fun p => (p.1, entryJson ver p.1 p.2)))))]

/-- reading it: FormElements27.py:103-106 -/
def ordinaryOf (j : JT) : Option V8.OForm.Src :=
  (listAt recOf j "props".toList).bind (fun as => (treeOf onodesOf j).bind (fun t => (dictAt entryOf j "data".toList).map (fun d => ⟨as, t, d⟩)))

/-- the file of an ordinary form with the option auto_include: FormCore.py:33-38, 211-218 -/
def autoJson (ver : Int) (s : V8.OForm.Src) : JT :=
  .obj [("params".toList, .arr []), ("props".toList, listJson recJson s.attrs), ("commands".toList, .arr []), ("tree".toList, .arr (anodesJson s.tree)),
    ("data".toList, .obj (dictOf (s.data.map (fun p => (p.1, entryJson ver p.1 p.2)))))]

/-- reading it: FormElements27.py:103-106 -/
def autoOf (j : JT) : Option V8.OForm.Src :=
  (listAt recOf j "props".toList).bind (fun as => (treeOf anodesOf j).bind (fun t => (dictAt entryOf j "data".toList).map (fun d => ⟨as, t, d⟩)))

/-- the file of a form that is not taken apart: FormCore.py:33-38, 211-218 -/
def nothingJson : JT :=
  .obj [("params".toList, .arr []), ("props".toList, .arr []), ("commands".toList, .arr []), ("tree".toList, .arr []), ("data".toList, .obj [])]

end V8.FormJson
