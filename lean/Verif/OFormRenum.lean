import Verif.OFormAuto
/-
Specification: what the option auto_include does to an ordinary form when it is taken apart and put together again.  Nothing here speaks of names,
paths or files: the elements of every panel are put in the order of their pages and numbered anew, 2, 3, 4 ... through all panels, every reference
follows its element, and the lists of what is tied to a panel and of the attributes shown by elements are written anew.
-/
namespace V8.OAuto
open V8.Brace V8.Dec
open V8.Form (count countAt dictGet calcOffset idx)
open V8.OForm (fromEnd get2 set2 pagesTable panelKind Node)

/-- the page of an element, its fifth entry from the end of its place, counted from the first page or, if negative, from the last of `n` -/
def pageNo (n : Nat) (raw : List Val) : Option Nat := match (placeOf raw).bind (fromEnd · 5) with
  | some (.str t) => match num t with
    | some i => if 0 ≤ i then some i.toNat else if (-i).toNat ≤ n then some (n - (-i).toNat) else none
    | none => none
  | _ => none

/-- the elements page by page -/
def byPage (n : Nat) (els : List (List Val)) : List (List Val) :=
  (List.range n).flatMap (fun p => els.filter (fun raw => decide (pageNo n raw = some p)))

/-- the entries that are lists -/
def listsOf (l : List Val) : List (List Val) := l.filterMap (fun v => match v with
  | .list raw => some raw
  | _ => none)

/-- what follows `k` lists, each behind its length -/
def skipLists : Nat → List Val → Option (List Val)
  | 0, l => some l
  | k + 1, l => (countAt l 0).bind (fun n => skipLists k (l.drop (1 + n)))

/-- the number of pages of a panel -/
def pageCount (pr : List Val) : Option Nat :=
  (calcOffset pr pagesTable 0).bind (fun off => (listOf pr[off]?).bind (fun l => countAt l 1))

/-- a reference after the numbering `M` (old number, new number); `other` for numbers of no element of the panel.  References that are not positive
(0 is the panel, -1 nothing) stay. -/
def newRef (M : List (Val × Text)) (other : Text → Text) (t : Text) : Text := match num t with
  | some n => if 0 < n then (dictGet M (.str t)).getD (other t) else t
  | none => t

/-- the references of one element with the new number `id`: a border tied to no element of the panel is tied to the element itself -/
def newRefs (M : List (Val × Text)) (id : Text) (raw : List Val) : Option (List Val × List (Nat × Val)) :=
  (placeOf raw).bind (fun a => (hits id a).bind (fun hs =>
    (mapRefs (fun t => some (newRef M (fun _ => id) t)) (fun t => some (newRef M (fun t => t) t)) a).map (fun b => (setPlace raw b, hs))))

/-- a panel: its data and its elements, `last` being the last number used before; `f` does the same for an element -/
def renumPanel (f : Nat → List Val → Option (List Val × Nat × List (Text × Text))) (last : Nat) (pr er : List Val) :
    Option (List Val × List Val × Nat × List (Text × Text)) :=
  (pageCount pr).bind (fun n =>
    (numbered (fun l (raw : List Val) => (raw[1]?).bind (fun old => (f l raw).map (fun x => ((old, showNat (l + 1), x.1), x.2))))
        last (byPage n (listsOf (er.drop 1)))).bind (fun res =>
      (each (fun (x : Val × Text × List Val) => newRefs (res.1.map (fun x => (x.1, x.2.1))) x.2.1 x.2.2) res.1).bind (fun new =>
        (skipLists 4 (pr.drop 2)).map (fun rest =>
          (pr.take 2 ++ (anchorLists (new.flatMap (·.2)) ++ rest),
            .str (showNat new.length) :: new.map (fun x => .list x.1), res.2.1, res.2.2)))))

/-- an element: its number is `last + 1`; `A` is the attribute the element with a number shows; a nested panel has its own elements -/
def renumElem (A : Val → Option Text) : Nat → Nat → List Val → Option (List Val × Nat × List (Text × Text))
  | 0, _, _ => none
  | depth + 1, last, raw => (raw[1]?).bind (fun old =>
    let link := (A old).toList.map (fun a => (showNat (last + 1), a))
    if raw[0]? ≠ some (.str panelKind) then some (raw.set 1 (.str (showNat (last + 1))), last + 1, link)
    else (listOf (get2 raw 2 1)).bind (fun pr => (listOf (fromEnd raw 1)).bind (fun er =>
      (renumPanel (renumElem A depth) (last + 1) pr er).map (fun o =>
        ((set2 (raw.set 1 (.str (showNat (last + 1)))) 2 1 (.list o.1)).set (raw.length - 1) (.list o.2.1), o.2.2.1, link ++ o.2.2.2)))))

/-- the entries of a list behind their number -/
def counted : Option Val → List Val
  | some (.list l) => match countAt l 0 with
    | some n => (l.drop 1).take n
    | none => []
  | _ => []

/-- the identifiers of the attributes of a form, `raw[2][2]` -/
def attrIds (raw : List Val) : List Val := (counted (get2 raw 2 2)).filterMap (fun v => (idx v 0).bind (idx · 0))

/-- an element and an attribute -/
def linkPair (v : Val) : Option (Val × Val) :=
  (idx v 0).bind (fun e => (((idx v 1).bind (idx · 1)).bind (idx · 0)).map (fun a => (e, a)))

/-- the elements with the attributes they show, `raw[2][3]` -/
def links (raw : List Val) : List (Val × Val) := (counted (get2 raw 2 3)).filterMap linkPair

/-- the attribute the element with number `old` shows; the last one counts, and only attributes of the form count -/
def attrOf (raw : List Val) (old : Val) : Option Text := match dictGet ((links raw).filter (fun l => decide (l.2 ∈ attrIds raw))) old with
  | some (.str t) => some t
  | _ => none

/-- the form: the panel of the form and the list of the attributes shown by elements; all else stays -/
def renumForm (A : Val → Option Text) (depth : Nat) (raw : List Val) : Option (List Val) :=
  (listOf (get2 raw 1 2)).bind (fun panel => (listOf (get2 panel 1 1)).bind (fun pr => (listOf panel[2]?).bind (fun er =>
    (renumPanel (renumElem A depth) 1 pr er).map (fun o =>
      set2 (set2 raw 1 2 (.list ((set2 panel 1 1 (.list o.1)).set 2 (.list o.2.1)))) 2 3
        (.list (.str (showNat o.2.2.2.length) :: o.2.2.2.map (fun l => .list [.str l.1, .list [.str ['1'], .list [.str l.2]]])))))))

end V8.OAuto
