import Verif.Form
/-
Model of ordinary forms: /repo/src/v8unpack/MetaDataObject/Form/FormElements27/*.py (and FormElements26/*.py, which differs only in the place of
the name of an attribute).

Without the option auto_include (its renumbering of elements and renaming of anchors is not modelled).  As in Verif/Form.lean: an exception is
`none`; `int(x)` is read for numbers in the usual notation; `depth` bounds the nesting of panels.  The kinds of elements other than panels are
handled alike.
-/
namespace V8.OForm
open V8.Brace V8.Dec V8.Form
open V8.Module (strEncode strDecode)

/-- FormItemTypes: FormElements27/FormElement.py:7-31, without Panel -/
def otherKinds : List Text := [
  "381ed624-9217-4e63-85db-c4c3cb87daae".toList, "35af3d93-d7c7-4a2e-a8eb-bac87a1a3f26".toList, "782e569a-79a7-4a4f-a936-b48d013936ec".toList,
  "64483e7f-3833-48e2-8c75-2c31aac49f6e".toList, "e69bf21d-97b2-4f37-86db-675aea9ec2cb".toList, "6ff79819-710e-4145-97cd-1618da79e3e2".toList,
  "151ef23e-6bb2-4681-83d0-35bc2217230c".toList, "90db814a-c75f-4b54-bc96-df62e554d67d".toList, "ea83fe3a-ac3c-4cce-8045-3dddf35b28b1".toList,
  "236a17b3-7f44-46d9-a907-75f9cdc61ab5".toList, "0fc7e20d-f241-460c-bdf4-5ad88e5474a5".toList, "19f8b798-314e-4b4e-8121-905b2a7a03f5".toList,
  "36e52348-5d60-4770-8e89-a16ed50a2006".toList, "d92a805c-98ae-4750-9158-d9ce7cec2f20".toList, "b1db1f86-abbb-4cf0-8852-fe6ae21650c2".toList,
  "e3c063d8-ef92-41be-9c89-b70290b5368b".toList, "6c06cd5d-8481-4b6f-a90a-7a97a8bb8bef".toList, "14c4a229-bfc3-42fe-9ce1-2da049fd0109".toList,
  "42248403-7748-49da-b782-e4438fd7bff3".toList, "ad37194e-555e-4305-b718-5dca84baf145".toList, "a8b97779-1a4b-4059-b09c-807f86d2a461".toList,
  "e5fdc112-5c84-4a16-9728-72b85692b6e2".toList, "a26da99e-184a-4823-b0d6-62816d38dc4e".toList, "984981b1-622d-4ebc-94f7-885f0cdfb59a".toList]

/-- the identifier of a panel: FormElement.py:18 -/
def panelKind : Text := "09ccdc77-ea1a-4a6d-ab1c-3435eada2433".toList

/-- the names of these kinds, in the same order: FormElements27/FormElement.py:7-31 -/
def otherLabels : List Text :=
  ["Field", "CheckBox", "RadioBtn", "SelectField", "CommandPanel", "Button", "Image", "Group", "Table", "TableField", "Label", "ListField",
   "Separator", "FieldHtml", "Indicator", "CalendarBox", "TrackBar", "TextDocumentField", "GraphicalSchemaField", "GeographicalSchemaField",
   "Chart", "GanttChart", "PivotChart", "Dendrogram"].map String.toList

/-- the name of the kind of a panel: FormElement.py:18, 42-45 -/
def panelLabel : Text := "Panel".toList

/-- `metadata_type.name` of an element that is no panel: FormElement.py:66, 78 (the kind has been looked up before, Panel.py:113-119) -/
def labelOf (raw : List Val) : Text := match (raw[0]? : Option Val) with
  | some (.str u) => ((otherKinds.zip otherLabels).lookup u).getD "Field".toList
  | _ => "Field".toList

/-- is it a panel; `none` is an unknown kind -/
def isPanel (u : Text) : Option Bool := if u = panelKind then some true else if u ∈ otherKinds then some false else none

/-- '-pages-' and 'в отдельном файле' -/
def pagesWord : Text := ['-', 'p', 'a', 'g', 'e', 's', '-']
def infoWord : Text := "в отдельном файле".toList

/-- `'/'.join` -/
def join : List Text → Text
  | [] => []
  | [a] => a
  | a :: b :: r => a ++ '/' :: join (b :: r)

/-- calc_id: Panel.py:24-33 -/
def calcId (path page name : Text) : Text := join (([path, page, name]).filter (fun t => decide (t ≠ [])))

/-- the key of an element at build time: Panel.py:452-458 -/
def elemKey (path page name : Text) : Text := join (([path, page]).filter (fun t => decide (t ≠ [])) ++ [name])

/-- `l[a:b]` -/
def slice (l : List Val) (a b : Int) : List Val :=
  let norm := fun x : Int => if x < 0 then (x + l.length).toNat else min x.toNat l.length
  (l.take (norm b)).drop (norm a)

/-- `l[-k]` for `k` > 0 -/
def fromEnd (l : List Val) (k : Nat) : Option Val := if k ≤ l.length then l[l.length - k]? else none

/-- an entry of elements_data: an element (Panel.py:59-73), a page (lines 286-290, 255-256), the list of the pages of a panel (line 292) -/
inductive Entry
  | elem (raw : List Val) (prop : Option Text)
  | page (raw : Val) (info : List Val)
  | pages (names : List Text)

/-! ### pages -/

/-- pages_offset: Panel.py:342-347 -/
def pagesTable : List (Nat × Nat) := [(2, 1), (1, 1), (1, 1), (1, 1), (1, 1), (1, 1), (4, 0)]

/-- the description of page `i` of `n`, where `m` entries follow the counter at `io`: Panel.py:242-253 -/
def infoAt (raw : List Val) (io m n i : Nat) : List Val :=
  let extra : Int := (m : Int) - (n : Int) * 4
  if i = 0 then slice raw ((io : Int) + 1) ((io : Int) + 1 + 4 + extra)
  else slice raw ((i : Int) * 4 + 1 + io + extra) ((i : Int) * 4 + 1 + io + extra + 4)

/-- the loop over the pages: Panel.py:269-290, with the descriptions of lines 246-256; pages `i`, `i + 1`, ... -/
def pagesLoop (path : Text) (info : Nat → List Val) : Nat → Nat → List Val → Option (List Text × List (Text × Entry))
  | _, 0, _ => some ([], [])
  | _, _ + 1, [] => none
  | i, n + 1, p :: r => match idx p 0, nameAt p 6, pagesLoop path info (i + 1) n r with
    | some _, some name, some (names, es) => some (name :: names, (calcId path name [], .page p (info i)) :: es)
    | _, _, _ => none

/-- decode_pages: Panel.py:209-299: the changed data, the names of the pages, the entries.  A page with the name '-pages-' makes line 256 fail. -/
def pagesOut (path : Text) (raw : List Val) : Option (List Val × List Text × List (Text × Entry)) :=
  match calcOffset raw pagesTable 0 with
  | none => none
  | some off => match (raw[off]? : Option Val) with
    | some (.list pr) => match countAt pr 1, countAt raw (off + 4) with
      | some n, some m => match pagesLoop path (infoAt raw (off + 4) m n) 0 n (pr.drop 2) with
        | none => none
        | some (names, es) =>
          if pagesWord ∈ names then none
          else some ((raw.set off (.list (pr.take 1 ++ pr.drop (3 + n)))).take (off + 4) ++ .str infoWord :: raw.drop (off + 4 + 1 + m),
            names, es ++ [(calcId path pagesWord [], .pages names)])
      | _, _ => none
    | _ => none

/-- the entry as a page: Panel.py:350-355 -/
def Entry.asPage : Entry → Option (Val × List Val)
  | .page r info => some (r, info)
  | .elem r _ => some (.list r, [])
  | .pages _ => none

/-- the loop of encode_pages: Panel.py:380-381 -/
def pagesIn1 (D : List (Text × Entry)) (path : Text) : List Text → Option (List Val × List Val)
  | [] => some ([], [])
  | name :: r => match (dictGet D (calcId path name [])).bind Entry.asPage, pagesIn1 D path r with
    | some (p, info), some (ps, infos) => some (p :: ps, info ++ infos)
    | _, _ => none

/-- encode_pages: Panel.py:349-390; `path` has already been through the replacement of line 360 -/
def pagesIn (D : List (Text × Entry)) (path : Text) (raw : List Val) : Option (List Val) :=
  match calcOffset raw pagesTable 0 with
  | none => none
  | some off => match (raw[off]? : Option Val) with
    | some (.list (p0 :: pr)) => match dictGet D (calcId path pagesWord []) with
      | some (.pages names) => match pagesIn1 D path names with
        | none => none
        | some (ps, infos) =>
          let raw1 := raw.set off (.list (p0 :: .str (showNat names.length) :: (ps ++ pr)))
          let raw2 := raw1.take (off + 4 + 1) ++ infos ++ raw1.drop (off + 4 + 1)
          if off + 4 < raw2.length then some (raw2.set (off + 4) (.str (showNat infos.length))) else none
      | _ => none
    | _ => none

/-! ### elements -/

/-- an entry of elements_tree: Panel.py:47, 54, 93; `label` is the name of the kind -/
inductive Node
  | mk (name label page : Text) (child : List Node)

/-- get_page_name: Panel.py:36-42; no page is the empty name (lines 29, 455) -/
def pageName (pages : List Text) (page : Val) : Option Text :=
  if truthy page = false ∨ pages = [] then some []
  else match page with
    | .str t => match parseInt t with
      | some n => if showInt n = t then
          (if 0 ≤ n then pages[n.toNat]? else if (-n).toNat ≤ pages.length then pages[pages.length - (-n).toNat]? else none)
        else none
      | none => none
    | _ => none

/-- name, page and identifier of an element: FormElement.py:64, 73-74 -/
def headOf (pages : List Text) (raw : List Val) : Option (Text × Text × Val) :=
  match (fromEnd raw 2).bind (nameAt · 1), ((fromEnd raw 3).bind seq).bind (fromEnd · 5), raw[1]? with
  | some name, some page, some id =>
    if hashable id = false then none
    else (pageName pages page).map (fun p => (name, p, id))
  | _, _, _ => none

/-- the path of the elements of a panel: Panel.py:90, 360, 437 -/
def inside (key : Text) : Text := Misc.replaceAll includr include' key.length key

/-- the list `raw[i][j]` and the list with it replaced -/
def get2 (raw : List Val) (i j : Nat) : Option Val := match (raw[i]? : Option Val) with
  | some (.list l) => l[j]?
  | _ => none
def set2 (raw : List Val) (i j : Nat) (v : Val) : List Val := match (raw[i]? : Option Val) with
  | some (.list l) => raw.set i (.list (l.set j v))
  | _ => raw

/-- the loop of decode_elements: Panel.py:110-141 -/
def elemsLoop (f : Bool → List Val → Option (Node × List (Text × Entry))) : Nat → List Val → Option (List Node × List (Text × Entry))
  | 0, _ => some ([], [])
  | n + 1, .list (.str u :: raw) :: rest => match isPanel u with
    | none => none
    | some k => match f k (.str u :: raw), elemsLoop f n rest with
      | some (node, es), some (nodes, es') => some (node :: nodes, es ++ es')
      | _, _ => none
  | _ + 1, _ => none

/-- decode_elements: Panel.py:103-143 -/
def elemsOut (f : Bool → List Val → Option (Node × List (Text × Entry))) (raw : List Val) :
    Option (List Val × List Node × List (Text × Entry)) :=
  match countAt raw 0 with
  | none => none
  | some 0 => some (raw, [], [])
  | some (n + 1) => match elemsLoop f (n + 1) (raw.drop 1) with
    | none => none
    | some (nodes, es) => some (.str marker :: raw.drop (n + 2), nodes, es)

/-- decode of one element: FormElement.py:61-82 with Panel.add_elem (Panel.py:35-75), Panel.decode (lines 79-101) for a nested panel; `P` is
props_index by element.  Simplification: a nested panel whose identifier is a list counts as an exception. -/
def elemOut (P : List (Val × Text)) : Nat → Text → List Text → Bool → List Val → Option (Node × List (Text × Entry))
  | 0, _, _, _, _ => none
  | depth + 1, path, pages, k, raw => match headOf pages raw with
    | none => none
    | some (name, page, id) =>
      let key := calcId path page name
      let prop := nonEmpty (dictGet P id)
      if k = false then some (.mk name (labelOf raw) page [], [(key, .elem raw prop)])
      else match get2 raw 2 1 with
        | some (.list pr) => match pagesOut (inside key) pr with
          | none => none
          | some (pr', names, es1) => match fromEnd (set2 raw 2 1 (.list pr')) 1 with
            | some (.list er) => match elemsOut (elemOut P depth (inside key) names) er with
              | none => none
              | some (er', nodes, es2) =>
                some (.mk name panelLabel page nodes,
                  (key, .elem ((set2 raw 2 1 (.list pr')).set (raw.length - 1) (.list er')) prop) :: (es1 ++ es2))
            | _ => none
        | _ => none

/-- the entry as an element: Panel.py:418, FormElement.py:117, 124 -/
def Entry.asElem : Entry → Option (List Val × Option Text)
  | .elem r p => some (r, p)
  | .page (.list r) _ => some (r, none)
  | _ => none

/-- the attribute of an element must be there: FormElement.py:124-128; `N` is props_index by name -/
def propFound (N : List (Text × Val)) : Option Text → Bool
  | none => true
  | some p => match dictGet N p with
    | some id => truthy id
    | none => false

/-- the loop of encode_elements: Panel.py:450-459 -/
def elemsIn1 (f : Node → Option (List Val)) : List Node → Option (List Val)
  | [] => some []
  | n :: r => match f n, elemsIn1 f r with
    | some raw, some rest => some (.list raw :: rest)
    | _, _ => none

/-- encode_elements: Panel.py:434-462 -/
def elemsIn (f : Node → Option (List Val)) (nodes : List Node) (raw : List Val) : Option (List Val) :=
  match elemsIn1 f nodes, raw with
  | some result, _ :: r => some (.str (showNat result.length) :: r ++ result)
  | _, _ => none

/-- `raw[1]` is a list: Panel.py:84, 310 -/
def listId (raw : List Val) : Bool := match (raw[1]? : Option Val) with
  | some (.list _) => true
  | _ => false

/-- encode of one element: FormElement.py:114-137, Panel.encode (Panel.py:301-338) for a nested panel; `path` has been through the replacement.
Simplification: as in `elemOut`, a nested panel whose identifier is a list counts as an exception. -/
def elemIn (N : List (Text × Val)) (D : List (Text × Entry)) : Nat → Text → Node → Option (List Val)
  | 0, _, _ => none
  | depth + 1, path, .mk name label page child => match (dictGet D (elemKey path page name)).bind Entry.asElem with
    | none => none
    | some (raw, prop) =>
      if raw[1]?.isNone ∨ propFound N prop = false then none
      else if label ≠ panelLabel then some raw
      else if listId raw then none
      else match get2 raw 2 1 with
        | some (.list pr) => match pagesIn D (inside (calcId path page name)) pr with
          | none => none
          | some pr' => match fromEnd (set2 raw 2 1 (.list pr')) 1 with
            | some (.list er) => match elemsIn (elemIn N D depth (inside (calcId path page name))) child er with
              | none => none
              | some er' => some ((set2 raw 2 1 (.list pr')).set (raw.length - 1) (.list er'))
            | _ => none
        | _ => none

/-! ### attributes -/

/-- an attribute: FormElement.py:147-157; `ni` is name_index, 4 or (FormElements26/FormElement.py:5) 3 -/
def attrOut (ni : Nat) (v : Val) : Option Rec := match nameAt v ni, (idx v 0).bind (idx · 0) with
  | some name, some id => some ⟨name, id, v⟩
  | _, _ => none

/-- the loop of decode_list: FormElement.py:166-168 -/
def attrsLoop (ni : Nat) : Nat → List Val → Option (List Rec)
  | 0, _ => some []
  | _ + 1, [] => none
  | n + 1, v :: r => match attrOut ni v, attrsLoop ni n r with
    | some a, some as => some (a :: as)
    | _, _ => none

/-- decode_list: FormElement.py:159-172 -/
def attrsOut (ni : Nat) (raw : List Val) : Option (List Val × Option (List Rec)) :=
  match countAt raw 0 with
  | none => none
  | some 0 => some (raw, none)
  | some (n + 1) => match attrsLoop ni (n + 1) (raw.drop 1) with
    | none => none
    | some as => some (.str marker :: raw.drop (n + 2), some as)

/-- encode_list: FormElement.py:174-188 -/
def attrsIn (attrs : Option (List Rec)) : List Val → Option (List Val)
  | [] => none
  | v :: r =>
    if v = .str marker then match attrs with
      | some (a :: as) => some (.str (showNat (a :: as).length) :: ((a :: as).map (·.raw) ++ r))
      | _ => some (.str ['0'] :: r)
    else some (v :: r)

/-- the loop of create_prop_index_by_elem_id: FormElements27.py:69-77; `I` is the index of the attributes by identifier -/
def linksLoop (I : List (Val × Text)) : Nat → List Val → Option (List (Val × Text))
  | 0, _ => some []
  | _ + 1, [] => none
  | n + 1, v :: r => match idx v 0, ((idx v 1).bind (idx · 1)).bind (idx · 0), linksLoop I n r with
    | some e, some a, some rest =>
      if hashable a = false then none
      else match dictGet I a with
        | none => some rest
        | some name => if hashable e = false then none else some ((e, name) :: rest)
    | _, _, _ => none

/-- create_prop_index_by_elem_id: FormElements27.py:56-81; `links` is form_data[2][3] -/
def elemProps (attrs : Option (List Rec)) (links : Option Val) : Option (List (Val × Text)) :=
  match attrs with
  | none => some []
  | some l =>
    if l = [] then some []
    else if l.all (fun a => hashable a.id) = false then none
    else match links.bind seq with
      | none => none
      | some ls => match countAt ls 0 with
        | none => none
        | some n => linksLoop (l.map (fun a => (a.id, a.name))) n (ls.drop 1)

/-- create_prop_index_by_name: FormElements27.py:83-90 -/
def attrsByName (attrs : Option (List Rec)) : List (Text × Val) := match attrs with
  | none => []
  | some l => l.map (fun a => (a.name, a.id))

/-! ### the whole form -/

/-- what is written to `<form>.elem.json` -/
structure Src where
  attrs : Option (List Rec)
  tree : List Node
  data : List (Text × Entry)

/-- Panel.decode for the panel of the form itself: Panel.py:84, 95-99 -/
def mainOut (P : List (Val × Text)) (depth : Nat) (panel : List Val) : Option (List Val × List Node × List (Text × Entry)) :=
  match get2 panel 1 1 with
  | some (.list pr) => match pagesOut [] pr with
    | none => none
    | some (pr', names, es1) => match (panel[2]? : Option Val) with
      | some (.list er) => match elemsOut (elemOut P depth [] names) er with
        | none => none
        | some (er', nodes, es2) => some ((set2 panel 1 1 (.list pr')).set 2 (.list er'), nodes, es1 ++ es2)
      | _ => none
  | _ => none

/-- Panel.encode for the panel of the form itself: Panel.py:310, 329-333 -/
def mainIn (N : List (Text × Val)) (D : List (Text × Entry)) (depth : Nat) (tree : List Node) (panel : List Val) : Option (List Val) :=
  match get2 panel 1 1 with
  | some (.list pr) => match pagesIn D [] pr with
    | none => none
    | some pr' => match (panel[2]? : Option Val) with
      | some (.list er) => match elemsIn (elemIn N D depth []) tree er with
        | none => none
        | some er' => some ((set2 panel 1 1 (.list pr')).set 2 (.list er'))
      | _ => none
  | _ => none

/-- FormElements27.decode: FormElements27.py:35-54 -/
def formOut (ni depth : Nat) (raw : List Val) : Option (List Val × Src) :=
  match get2 raw 2 2 with
  | some (.list al) => match attrsOut ni al with
    | none => none
    | some (al', attrs) =>
      let raw1 := set2 raw 2 2 (.list al')
      match get2 raw1 1 2 with
      | some (.list panel) =>
        if panel[0]? ≠ some (.str panelKind) then none
        else match elemProps attrs (get2 raw1 2 3) with
          | none => none
          | some P => match mainOut P depth panel with
            | none => none
            | some (panel', nodes, es) => some (set2 raw1 1 2 (.list panel'), ⟨attrs, nodes, es⟩)
      | _ => none
  | _ => none

/-- FormElements27.encode: FormElements27.py:99-114 -/
def formIn (depth : Nat) (raw : List Val) (src : Src) : Option (List Val) :=
  match get2 raw 2 2 with
  | some (.list al) => match attrsIn src.attrs al with
    | none => none
    | some al' =>
      let raw1 := set2 raw 2 2 (.list al')
      match get2 raw1 1 2 with
      | some (.list panel) => match mainIn (attrsByName src.attrs) src.data depth src.tree panel with
        | none => none
        | some panel' => some (set2 raw1 1 2 (.list panel'))
      | _ => none
  | _ => none

/-- FormCore.decode_includes around it: FormCore.py:187-194: after an exception the form is the one that was read, and the sources hold at most the
attributes (FormElements27.py:37-38: the tree and the data are assigned together at the end; FormCore.py:33-38 are their first values) -/
def takeApart (ni depth : Nat) (raw : List Val) (left : Option (List Rec)) : List Val × Src :=
  match formOut ni depth raw with
  | some r => r
  | none => (raw, ⟨left, [], []⟩)

end V8.OForm
