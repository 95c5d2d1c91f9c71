import Verif.OForm
/-
Model of ordinary forms with the option auto_include: /repo/src/v8unpack/MetaDataObject/Form/FormElements27/{Panel,FormElement,FormElements27}.py
(FormElements26 differs only in the place of the name of an attribute).  Elements are grouped by page in `<form>.elem.json`, numbered anew when the
form is built, and the references between elements (anchors) are kept by name.

As in Verif/OForm.lean: an exception is `none`; `int(x)` is read for numbers in the usual notation; `depth` bounds the nesting of panels; an entry
that is not a list or a string where one is expected counts as an exception.  Further simplifications: a nested panel with fewer than six entries
counts as an exception, and the entries of the file are read anew for every node (the program would share the lists of an entry that two nodes of
the tree name).
-/
namespace V8.OAuto
open V8.Brace V8.Dec
open V8.Form (count countAt dictGet marker nonEmpty calcOffset truthy Rec)
open V8.OForm hiding formOut formIn elemOut elemIn elemsOut elemsIn elemsLoop
open V8.Module (strEncode strDecode)

/-! ### where the references are -/

/-- `int(t)`; for a text in the usual notation also `str(int(t)) == t`: Panel.py:184, 197, 465-469 -/
def num (t : Text) : Option Int := match parseInt t with
  | some n => if showInt n = t then some n else none
  | none => none

/-- `x[1] = f(x[1])`: Panel.py:183-190, 195-200, 483-493, 500-503 -/
def mapRef (f : Text → Option Text) : Val → Option Val
  | .list (a :: .str t :: r) => (f t).map (fun t' => .list (a :: .str t' :: r))
  | _ => none

/-- both ends of a border, `x[1]` and `x[2]`: Panel.py:182, 482 -/
def mapEnds (f : Text → Option Text) : Val → Option Val
  | .list (a :: x :: y :: r) => (mapRef f x).bind (fun x' => (mapRef f y).map (fun y' => .list (a :: x' :: y' :: r)))
  | _ => none

/-- the first `n` entries -/
def mapN (f : Val → Option Val) : Nat → List Val → Option (List Val)
  | 0, l => some l
  | _ + 1, [] => none
  | n + 1, v :: r => (f v).bind (fun v' => (mapN f n r).map (fun r' => v' :: r'))

/-- the entries of the first `k` lists, each behind its length: Panel.py:191-206, 496-506 -/
def mapLists (f : Val → Option Val) : Nat → List Val → Option (List Val)
  | 0, l => some l
  | _ + 1, [] => none
  | k + 1, c :: r => (count c).bind (fun n => (mapN f n r).bind (fun r' => (mapLists f k (r'.drop n)).map (fun t => c :: (r'.take n ++ t))))

/-- all references of the description of the place of an element: what its six borders are tied to (entries 6 to 11) with `f`, what is tied to its four borders
(counted lists from entry 12 on) with `g`: Panel.py:177-206, 464-509 -/
def mapRefs (f g : Text → Option Text) (a : List Val) : Option (List Val) :=
  (mapN (mapEnds f) 6 (a.drop 6)).bind (fun b => (mapLists (mapRef g) 4 (b.drop 6)).map (fun c => a.take 6 ++ (b.take 6 ++ c)))

/-- the place of an element, `raw[-3]`: Panel.py:154, 474 -/
def placeOf (raw : List Val) : Option (List Val) := match fromEnd raw 3 with
  | some (.list a) => some a
  | _ => none
def setPlace (raw a : List Val) : List Val := raw.set (raw.length - 3) (.list a)

/-- `anchor_index[n]` after the limit of line 488: Panel.py:487-489 -/
def sideOf (n : Int) : Option Nat := if 3 < n then some 1 else if 0 ≤ n then some n.toNat else if -4 ≤ n then some (n + 4).toNat else none

/-- the border of the panel: Panel.py:487-488; `r` begins with `x[2]` -/
def panelSide : List Val → Option Nat
  | .str n :: _ => (num n).bind sideOf
  | _ => none

/-- an end that is tied to the panel, as an entry of the lists of the panel: Panel.py:486-489; `id` is the element, `b` the border -/
def endHit (id : Text) (b : Nat) (first : Val) : Val → Option (List (Nat × Val))
  | .list (_ :: .str t :: r) =>
    if t = ['0'] then (panelSide r).map (fun k => [(k, .list [first, .str id, .str (showNat b)])]) else some []
  | _ => none

/-- both ends of a border: Panel.py:481-489 -/
def borderHits (id : Text) (b : Nat) : Val → Option (List (Nat × Val))
  | .list (a :: x :: y :: _) => (endHit id (if 3 < b then 1 else b) a x).bind (fun h => (endHit id (if 3 < b then 1 else b) a y).map (fun h' => h ++ h'))
  | _ => none

/-- `n` borders from border `b` on: Panel.py:480-494 -/
def hitsFrom (id : Text) : Nat → Nat → List Val → Option (List (Nat × Val))
  | _, 0, _ => some []
  | _, _ + 1, [] => none
  | b, n + 1, v :: r => (borderHits id b v).bind (fun h => (hitsFrom id (b + 1) n r).map (fun h' => h ++ h'))

/-- the entries for the panel: Panel.py:479-494 -/
def hits (id : Text) (a : List Val) : Option (List (Nat × Val)) := hitsFrom id 0 6 (a.drop 6)

/-- the four lists of a panel, each behind its length: Panel.py:394-399 -/
def anchorLists (hs : List (Nat × Val)) : List Val :=
  (List.range 4).flatMap (fun k => .str (showNat (hs.filter (fun h => decide (h.1 = k))).length) :: (hs.filter (fun h => decide (h.1 = k))).map (·.2))

/-! ### extraction -/

/-- the loop of delete_anchored: Panel.py:230-235, on the list from the first counter on -/
def delLists : Nat → List Val → Option (List Val)
  | 0, l => some l
  | k + 1, l => (countAt l 0).bind (fun n => (delLists k (l.drop (1 + n))).map (fun r => .str ['0'] :: r))

/-- delete_anchored: Panel.py:228-235 -/
def delAnchored (raw : List Val) : Option (List Val) := (delLists 4 (raw.drop 2)).map (fun r => raw.take 2 ++ r)

/-- one decoded element: its node, the key of its entry, the number of its page, its identifier, its entry, the entries of its own elements -/
structure Item where
  node : Node
  key : Text
  page : Nat
  id : Val
  raw : List Val
  prop : Option Text
  inner : List (Text × Entry)

/-- `_elements_tree_index[page_id]`: Panel.py:51, 283; the last page with the path -/
def pageIndex (path : Text) (names : List Text) (page : Text) : Option Nat :=
  ((List.range names.length).reverse).find? (fun i => decide ((names[i]?).map (fun n => calcId path n []) = some (calcId path page [])))

/-- `'Page'`: Panel.py:278 -/
def pageLabel : Text := "Page".toList

/-- the loop of decode_elements: Panel.py:110-141 -/
def elemsLoop (f : Bool → List Val → Option Item) : Nat → List Val → Option (List Item)
  | 0, _ => some []
  | n + 1, .list (.str u :: raw) :: rest => (isPanel u).bind (fun k => (f k (.str u :: raw)).bind (fun it => (elemsLoop f n rest).map (fun its => it :: its)))
  | _ + 1, _ => none

/-- the name of an element in a reference: Panel.py:184-190 (`self` is the element itself), 197-202 -/
def toName (index : List (Val × Text)) (path : Text) (other : Text → Text) (t : Text) : Option Text :=
  (num t).map (fun (n : Int) => if 0 < n then (match dictGet index (.str t) with
    | some key => key.drop path.length
    | none => other t) else t)

/-- replace the entry of a key -/
def dictSet (es : List (Text × Entry)) (key : Text) (v : Entry) : List (Text × Entry) := es.map (fun e => if e.1 = key then (key, v) else e)

/-- the references of one element of the panel: Panel.py:148-154, 177-206 -/
def nameRefs (index : List (Val × Text)) (path key : Text) (es : List (Text × Entry)) : Option (List (Text × Entry)) :=
  match dictGet es key with
  | none => none
  | some (.elem raw prop) => (placeOf raw).bind (fun a =>
      (mapRefs (toName index path (fun _ => key.drop path.length)) (toName index path id) a).map (fun a' => dictSet es key (.elem (setPlace raw a') prop)))
  | some _ => some es

/-- the references of all elements of the panel: Panel.py:147-154 -/
def nameAll (index : List (Val × Text)) (path : Text) : List Text → List (Text × Entry) → Option (List (Text × Entry))
  | [], es => some es
  | k :: r, es => (nameRefs index path k es).bind (fun es' => nameAll index path r es')

/-- the entries of the elements: Panel.py:63-68, 94 -/
def entriesOf (its : List Item) : List (Text × Entry) := its.flatMap (fun it => (it.key, .elem it.raw it.prop) :: it.inner)

/-- the tree of a panel: a node for every page (Panel.py:275-280) with its elements (line 52) -/
def treeOf (names : List Text) (its : List Item) : List Node :=
  (List.range names.length).map (fun i => .mk (names[i]?.getD []) pageLabel [] ((its.filter (fun it => decide (it.page = i))).map (·.node)))

/-- decode_elements: Panel.py:103-156 -/
def elemsOut (f : Bool → List Val → Option Item) (path : Text) (names : List Text) (raw : List Val) :
    Option (List Val × List Node × List (Text × Entry)) :=
  match countAt raw 0 with
  | none => none
  | some 0 => some (raw, treeOf names [], [])
  | some (n + 1) => (elemsLoop f (n + 1) (raw.drop 1)).bind (fun its =>
      (nameAll (its.map (fun it => (it.id, it.key))) path (its.map (·.key)) (entriesOf its)).map (fun es =>
        (.str marker :: raw.drop (n + 2), treeOf names its, es)))

/-- Panel.decode, pages and elements: Panel.py:91-94, 97-98; decode_pages with delete_anchored: lines 292-294 -/
def panelOut (f : List Text → Bool → List Val → Option Item) (path : Text) (pr er : List Val) :
    Option (List Val × List Val × List Node × List (Text × Entry)) :=
  (pagesOut path pr).bind (fun p => (delAnchored p.1).bind (fun pr' =>
    (elemsOut (f p.2.1) path p.2.1 er).map (fun e => (pr', e.1, e.2.1, p.2.2 ++ e.2.2))))

/-- a list -/
def listOf : Option Val → Option (List Val)
  | some (.list l) => some l
  | _ => none

/-- decode of one element: FormElement.py:61-82 with Panel.add_elem (Panel.py:35-75), Panel.decode (lines 79-101) for a nested panel; `P` is
props_index by element -/
def elemOut (P : List (Val × Text)) : Nat → Text → List Text → Bool → List Val → Option Item
  | 0, _, _, _, _ => none
  | depth + 1, path, names, k, raw => (headOf names raw).bind (fun h => (pageIndex path names h.2.1).bind (fun i =>
      if k = false then some ⟨.mk h.1 (labelOf raw) [] [], calcId path h.2.1 h.1, i, h.2.2, raw, nonEmpty (dictGet P h.2.2), []⟩
      else if raw.length < 6 then none
      else (listOf (get2 raw 2 1)).bind (fun pr => (listOf (fromEnd raw 1)).bind (fun er =>
        (panelOut (elemOut P depth (inside (calcId path h.2.1 h.1))) (inside (calcId path h.2.1 h.1)) pr er).map (fun o =>
          ⟨.mk h.1 panelLabel [] o.2.2.1, calcId path h.2.1 h.1, i, h.2.2,
            (set2 raw 2 1 (.list o.1)).set (raw.length - 1) (.list o.2.1), nonEmpty (dictGet P h.2.2), o.2.2.2⟩)))))

/-- FormElements27.decode: FormElements27.py:35-54, Panel.py:95-99 -/
def formOut (ni depth : Nat) (raw : List Val) : Option (List Val × Src) :=
  (listOf (get2 raw 2 2)).bind (fun al => (attrsOut ni al).bind (fun a =>
    (listOf (get2 raw 1 2)).bind (fun panel =>
      if panel[0]? ≠ some (.str panelKind) then none
      else (elemProps a.2 (get2 (set2 raw 2 2 (.list a.1)) 2 3)).bind (fun P =>
        (listOf (get2 panel 1 1)).bind (fun pr => (listOf panel[2]?).bind (fun er =>
          (panelOut (elemOut P depth []) [] pr er).map (fun o =>
            (set2 (set2 raw 2 2 (.list a.1)) 1 2 (.list ((set2 panel 1 1 (.list o.1)).set 2 (.list o.2.1))), ⟨a.2, o.2.2.1, o.2.2.2⟩))))))))

/-! ### build -/

/-- encode_pages with the names of the tree: Panel.py:349-374, 383-390; `path` has already been through the replacement of line 360 -/
def pagesWith (D : List (Text × Entry)) (path : Text) (names : List Text) (raw : List Val) : Option (List Val) :=
  match calcOffset raw pagesTable 0 with
  | none => none
  | some off => match (raw[off]? : Option Val) with
    | some (.list (p0 :: pr)) => match pagesIn1 D path names with
      | none => none
      | some (ps, infos) =>
        let raw1 := raw.set off (.list (p0 :: .str (showNat names.length) :: (ps ++ pr)))
        let raw2 := raw1.take (off + 4 + 1) ++ infos ++ raw1.drop (off + 4 + 1)
        if off + 4 < raw2.length then some (raw2.set (off + 4) (.str (showNat infos.length))) else none
    | _ => none

def nodeName : Node → Text
  | .mk n _ _ _ => n
def nodeChild : Node → List Node
  | .mk _ _ _ c => c

/-- `path.replace('includr', 'include')`: Panel.py:478 -/
def insideRef (path : Text) : Text := Misc.replaceAll "includr".toList "include".toList path.length path

/-- `'/'.join(_id + [page['name']])`: Panel.py:438, 443 -/
def pageId (path name : Text) : Text := if path = [] then name else path ++ '/' :: name

/-- the elements in the order of the two loops of encode_elements, each with the path of its page: Panel.py:442-447 -/
def flat (path : Text) (tree : List Node) : List (Text × Node) :=
  tree.flatMap (fun p => (nodeChild p).map (fun n => (pageId path (nodeName p), n)))

/-- a loop over elements that hands on the last number: Panel.py:446, 323, 328, 336 -/
def numbered {α β γ : Type} (f : Nat → α → Option (β × Nat × List γ)) : Nat → List α → Option (List β × Nat × List γ)
  | last, [] => some ([], last, [])
  | last, a :: r => (f last a).bind (fun x => (numbered f x.2.1 r).map (fun y => (x.1 :: y.1, y.2.1, x.2.2 ++ y.2.2)))

/-- field_data_source for an element with number `id`: FormElement.py:123-128; `N` is props_index by name.  Simplification: an identifier of an
attribute that is no string counts as an exception (at extraction it is one for a list, create_prop_index_by_elem_id). -/
def linkOf (N : List (Text × Val)) (id : Text) : Option Text → Option (List (Text × Text))
  | none => some []
  | some p => match dictGet N p with
    | some (.str (c :: t)) => some [(id, c :: t)]
    | _ => none

/-- the identifier for a name in a reference: Panel.py:484-493, 501-503 -/
def toId (index : List (Text × Text)) (path : Text) (t : Text) : Option Text :=
  if (num t).isSome then some t else dictGet index (path ++ t)

/-- the references of one element of the result: Panel.py:473-506 -/
def idRefs (index : List (Text × Text)) (path : Text) (id : Text) (raw : List Val) : Option (List Val × List (Nat × Val)) :=
  (placeOf raw).bind (fun a => (hits id a).bind (fun hs => (mapRefs (toId index path) (toId index path) a).map (fun a' => (setPlace raw a', hs))))

/-- a loop that may fail -/
def each {α β : Type} (f : α → Option β) : List α → Option (List β)
  | [] => some []
  | a :: r => (f a).bind (fun b => (each f r).map (fun l => b :: l))

/-- Panel.encode, pages and elements: Panel.py:325-328, 331-336, encode_element (lines 406-432), encode_elements (lines 434-449, 461-462),
encode_anchor_index (lines 392-404); `path` is the path before the replacements -/
def panelIn (D : List (Text × Entry)) (f : Text → Nat → Node → Option (List Val × Nat × List (Text × Text))) (path : Text) (tree : List Node)
    (last : Nat) (pr er : List Val) : Option (List Val × List Val × Nat × List (Text × Text)) :=
  (pagesWith D (inside path) (tree.map nodeName) pr).bind (fun pr1 =>
    (numbered (fun l (e : Text × Node) => (f e.1 l e.2).map (fun x => ((e.1 ++ '/' :: nodeName e.2, showNat (l + 1), x.1), x.2)))
        last (flat (inside path) tree)).bind (fun res =>
      (each (fun (x : Text × Text × List Val) => idRefs (res.1.map (fun x => (x.1, x.2.1))) (insideRef path) x.2.1 x.2.2) res.1).bind (fun back =>
        match er with
        | [] => none
        | _ :: r => some (pr1.take 2 ++ (anchorLists (back.flatMap (·.2)) ++ pr1.drop 6),
            .str (showNat back.length) :: (r ++ back.map (fun b => .list b.1)), res.2.1, res.2.2))))

/-- encode of one element: FormElement.py:114-137, Panel.encode (Panel.py:301-338) for a nested panel; `pid` is the path of the page -/
def elemIn (N : List (Text × Val)) (D : List (Text × Entry)) : Nat → Text → Nat → Node → Option (List Val × Nat × List (Text × Text))
  | 0, _, _, _ => none
  | depth + 1, pid, last, .mk name label _ child =>
    ((dictGet D (pid ++ '/' :: name)).bind Entry.asElem).bind (fun e => (linkOf N (showNat (last + 1)) e.2).bind (fun ls =>
      if e.1.length < 2 then none
      else if label ≠ panelLabel then some (e.1.set 1 (.str (showNat (last + 1))), last + 1, ls)
      else if listId e.1 ∨ e.1.length < 6 then none
      else (listOf (get2 e.1 2 1)).bind (fun pr => (listOf (fromEnd e.1 1)).bind (fun er =>
        (panelIn D (elemIn N D depth) (calcId pid name []) child (last + 1) pr er).map (fun o =>
          ((set2 (e.1.set 1 (.str (showNat (last + 1)))) 2 1 (.list o.1)).set (e.1.length - 1) (.list o.2.1), o.2.2.1, ls ++ o.2.2.2))))))

/-- fill_datasource: FormElements27.py:92-97 -/
def linkVal (l : Text × Text) : Val := .list [.str l.1, .list [.str ['1'], .list [.str l.2]]]

/-- FormElements27.encode: FormElements27.py:99-114, Panel.py:329-336 -/
def formIn (depth : Nat) (raw : List Val) (src : Src) : Option (List Val) :=
  (listOf (get2 raw 2 2)).bind (fun al => (attrsIn src.attrs al).bind (fun al' =>
    (listOf (get2 raw 1 2)).bind (fun panel => (listOf (get2 panel 1 1)).bind (fun pr => (listOf panel[2]?).bind (fun er =>
      (panelIn src.data (elemIn (attrsByName src.attrs) src.data depth) [] src.tree 1 pr er).bind (fun o =>
        if (get2 raw 2 3).isNone then none
        else some (set2 (set2 (set2 raw 2 2 (.list al')) 1 2 (.list ((set2 panel 1 1 (.list o.1)).set 2 (.list o.2.1)))) 2 3
          (.list (.str (showNat o.2.2.2.length) :: o.2.2.2.map linkVal)))))))))

/-- FormCore.decode_includes around it: FormCore.py:187-194, as in OForm.takeApart: after an exception the form is the one that was read, and the
sources hold at most the attributes -/
def takeApart (ni depth : Nat) (raw : List Val) (left : Option (List Rec)) : List Val × Src :=
  match formOut ni depth raw with
  | some r => r
  | none => (raw, ⟨left, [], []⟩)

end V8.OAuto
