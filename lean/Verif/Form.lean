import Verif.Header
import Verif.Misc
/-
Model of managed forms: /repo/src/v8unpack/MetaDataObject/Form/FormElements4/*.py and /repo/src/v8unpack/helper.py:518-534 (calc_offset).

Taking a form apart changes the lists of the form in place; the functions below return the changed lists.  An exception is `none`.
Simplifications, everywhere in this file:
* `int(x)` is read for numbers in the usual notation only (`count`): other spellings (sign, spaces, leading zeros) count as an exception;
* an element or a name that is not a list or a string where one is expected counts as an exception;
* `depth` bounds the depth of nesting, like Python's recursion limit (RecursionError is an exception like the others).
-/
namespace V8.Form
open V8.Brace V8.Dec V8.Module

/-! ### counters -/

/-- `int(v)` for a number in the usual notation -/
def count : Val → Option Nat
  | .str t => match parseInt t with
    | some n => if 0 ≤ n ∧ showNat n.toNat = t then some n.toNat else none
    | none => none
  | _ => none

/-- `int(raw[i])` -/
def countAt (raw : List Val) (i : Nat) : Option Nat := match raw[i]? with
  | some v => count v
  | none => none

/-- calc_offset: helper.py:518-534, from position `i` on -/
def calcOffset (raw : List Val) : List (Nat × Nat) → Nat → Option Nat
  | [], i => some i
  | (c, s) :: r, i =>
    if s = 0 then calcOffset raw r (i + c)
    else match countAt raw (i + c) with
      | some v => calcOffset raw r (i + c + v * s)
      | none => none

/-- check_count_element: FormElement.py:8-18, from position `i` on with `var` entries counted -/
def checkCount (raw : List Val) : List (Nat × Nat) → Nat → Nat → Option Nat
  | [], _, var => some (raw.length - var)
  | (c, s) :: r, i, var =>
    if s = 0 then checkCount raw r (i + c) var
    else match countAt raw (i + c) with
      | some v => checkCount raw r (i + c + v * s) (var + v * s)
      | none => none

/-! ### kinds of elements -/

/-- FormItemTypes: FormElement.py:21-27 -/
inductive Kind
  | field | button | decoration | group | table | itemAddition
deriving DecidableEq, Repr

def Kind.uuid : Kind → Text
  | .field => "77ffcc29-7f2d-4223-b22f-19666e7250ba".toList
  | .button => "a9f3b1ac-f51b-431e-b102-55a69acdecad".toList
  | .decoration => "3d3cb80c-508b-41fa-8a18-680cdf5f1712".toList
  | .group => "cd5394d0-7dda-4b56-8927-93ccbe967a01".toList
  | .table => "143c00f7-a42d-4cd7-9189-88e4467dc768".toList
  | .itemAddition => "c5259a1d-518a-4afd-b98d-0176027e4feb".toList

def Kind.all : List Kind := [.field, .button, .decoration, .group, .table, .itemAddition]

/-- `FormItemTypes(uuid)`; `none` is ValueError -/
def kindOf (u : Text) : Option Kind := Kind.all.find? (fun k => decide (k.uuid = u))

/-- get_name_node_offset: Field.py:6-8, Button.py:6-8, Decoration.py:6-8, Group.py:11-12, Table.py:9-11, ItemAddition.py:6-8 -/
def Kind.name : Kind → List (Nat × Nat)
  | .field => [(3, 1), (1, 1), (2, 0)]
  | .button => [(3, 1), (2, 0)]
  | .decoration => [(3, 1), (1, 1), (2, 0)]
  | .group => [(3, 1), (1, 1), (2, 0)]
  | .table => [(4, 1), (1, 0)]
  | .itemAddition => [(3, 1), (3, 0)]

/-- get_prop_link_offset: FormElement.py:36-38, Field.py:10-12, Table.py:13-15 -/
def Kind.prop : Kind → Option (List (Nat × Nat))
  | .field => some [(3, 1), (1, 1), (7, 0)]
  | .table => some [(4, 1), (7, 0)]
  | _ => none

/-- get_command_link_offset: FormElement.py:45-47, Button.py:10-12 -/
def Kind.command : Kind → Option (List (Nat × Nat))
  | .button => some [(3, 1), (5, 0)]
  | _ => none

/-- where the counter of the nested elements stands: Group.py:27, 42, Table.py:33-35, 58-60 -/
def Kind.child : Kind → Option (List (Nat × Nat))
  | .group => some [(3, 1), (1, 1), (17, 0)]
  | .table => some [(4, 1), (50, 2), (7, 0)]
  | _ => none

/-- `raw[0] == s` -/
def headIs (raw : List Val) (s : Text) : Bool := decide (raw[0]? = some (.str s))

/-- the check of the size of an element: Group.py:17-24, Table.py:19-26; `false` is an exception -/
def sizeOk (k : Kind) (raw : List Val) : Bool := match k with
  | .group => match checkCount raw [(3, 1), (1, 1), (17, 2)] 0 0 with
    | some n => !(headIs raw ['2', '2'] && decide (n < 20))
    | none => false
  | .table => match checkCount raw [(4, 1), (50, 2), (7, 2)] 0 0 with
    | some n => !(headIs raw ['5', '5'] && decide (n ≠ 99))
    | none => false
  | _ => true

/-! ### values -/

/-- Python truth -/
def truthy : Val → Bool
  | .none => false
  | .str s => decide (s ≠ [])
  | .list l => decide (l ≠ [])

/-- the sequence `v[0], v[1], ...`; `none` is TypeError -/
def seq : Val → Option (List Val)
  | .none => none
  | .str s => some (s.map (fun c => .str [c]))
  | .list l => some l

/-- `v[i]` -/
def idx (v : Val) (i : Nat) : Option Val := match seq v with
  | some l => l[i]?
  | none => none

/-- `v` can be a key of a dictionary -/
def hashable : Val → Bool
  | .list _ => false
  | _ => true

/-- 'Дочерние элементы отдельно' -/
def marker : Text := "Дочерние элементы отдельно".toList

/-- 'includr_' and 'include_' -/
def includr : Text := ['i', 'n', 'c', 'l', 'u', 'd', 'r', '_']
def include' : Text := ['i', 'n', 'c', 'l', 'u', 'd', 'e', '_']

/-- `s.find(pat) >= 0` -/
def occurs (pat : Text) : Text → Bool
  | [] => Str.starts pat []
  | c :: t => Str.starts pat (c :: t) || occurs pat t

/-- `path/name`, or `name` alone: FormElement.py:86, 171 -/
def key (path name : Text) : Text := if path = [] then name else path ++ '/' :: name

/-! ### attributes and commands of a form, as elements refer to them -/

/-- `props_index` by identifier: identifier, name, nested (identifier, name): FormElements4.py:31-38 -/
abbrev PropsById := List (Val × Text × List (Val × Text))

/-- `d[k]` of a dictionary: the last entry with this key -/
def dictGet {α β : Type} [DecidableEq α] (d : List (α × β)) (k : α) : Option β := (d.reverse.find? (fun e => decide (e.1 = k))).map (·.2)

/-- the name of the attribute an element refers to: FormElement.py:53-73; `ls` is the link, `n` its length; `none` is an exception,
`some none` means that there is no such attribute.  Below the second level there are no attributes in the index. -/
def propName (P : PropsById) (n : Nat) (ls : List Val) : Option (Option Text) :=
  match (ls[1]?).bind (idx · 0) with
  | none => none
  | some a =>
    if hashable a = false then none
    else match dictGet P a with
      | none => some none
      | some (nm, kids) =>
        if n = 1 then some (some nm)
        else match (ls[2]?).bind (idx · 0) with
          | none => none
          | some b =>
            if hashable b = false then none
            else match dictGet kids b with
              | none => some none
              | some nm2 =>
                if n = 2 then some (some (nm ++ '.' :: nm2))
                else match (ls[3]?).bind (idx · 0) with
                  | none => none
                  | some c => if hashable c = false then none else some none

/-- `if text:` for a text that is there -/
def nonEmpty : Option Text → Option Text
  | some [] => none
  | t => t

/-- `prop` of an element: FormElement.py:54-73, 82-83 -/
def elemProp (P : PropsById) (k : Kind) (raw : List Val) : Option (Option Text) :=
  match k.prop with
  | none => some none
  | some cs => match calcOffset raw cs 0 with
    | none => none
    | some i => match raw[i]? with
      | none => none
      | some link =>
        if truthy link = false then some none
        else match seq link with
          | none => none
          | some ls => match countAt ls 0 with
            | none => none
            | some 0 => some none
            | some (n + 1) => (propName P (n + 1) ls).map nonEmpty

/-- `command` of an element: FormElement.py:75-80, 84-85; `C` is commands_index by identifier -/
def elemCommand (C : List (Val × Text)) (k : Kind) (raw : List Val) : Option (Option Text) :=
  match k.command with
  | none => some none
  | some cs => match calcOffset raw cs 0 with
    | none => none
    | some i => match raw[i]? with
      | none => none
      | some link =>
        if truthy link = false then some none
        else match idx link 0 with
          | none => none
          | some c => match count c with
            | none => none
            | some 0 => some none
            | some (_ + 1) => some (nonEmpty (dictGet C c))

/-- the name of an element: FormElement.py:51-52, 80-81, 87 -/
def elemName (k : Kind) (raw : List Val) : Option Text :=
  match calcOffset raw k.name 0 with
  | none => none
  | some i => match raw[i]? with
    | some (.str tok) => if tok = [] then none else some (strDecode tok)
    | _ => none

/-! ### taking elements out -/

/-- an entry of `elements_data`: FormElement.py:82-88 -/
structure Data where
  raw : List Val
  prop : Option Text
  command : Option Text
deriving DecidableEq

/-- an entry of `elements_tree`: FormElement.py:90-93; a missing list of nested elements is the empty one -/
inductive Node
  | mk (name : Text) (kind : Kind) (child : List Node)

/-- the path of the nested elements: Group.py:28-29, Table.py:36 -/
def childPath (k : Kind) (path name : Text) : Text :=
  match k with
  | .group => Misc.replaceAll includr include' (key path name).length (key path name)
  | _ => key path name

/-- the loop of decode_list: FormElement.py:105-117: `n` pairs of kind and element -/
def decodePairs (f : Kind → List Val → Option (Node × List (Text × Data))) : Nat → List Val → Option (List Node × List (Text × Data))
  | 0, _ => some ([], [])
  | n + 1, .str u :: .list raw :: rest => match kindOf u with
    | none => none
    | some k => match f k raw with
      | none => none
      | some (node, es) => match decodePairs f n rest with
        | none => none
        | some (nodes, es') => some (node :: nodes, es ++ es')
  | _ + 1, _ => none

/-- decode_list: FormElement.py:98-126: the changed list, the tree, the entries in the order they are added -/
def decodeList (f : Kind → List Val → Option (Node × List (Text × Data))) (i : Nat) (raw : List Val) :
    Option (List Val × List Node × List (Text × Data)) :=
  match countAt raw i with
  | none => none
  | some 0 => some (raw, [], [])
  | some (n + 1) => match decodePairs f (n + 1) (raw.drop (i + 1)) with
    | none => none
    | some (nodes, es) => some (raw.take i ++ .str marker :: raw.drop (i + 1 + (n + 1) * 2), nodes, es)

/-- decode of one element: FormElement.py:49-95, Group.py:15-31, Table.py:17-38; the entry of the element itself is added before those of its
nested elements, and holds the list from which they have been taken out -/
def decodeElem (P : PropsById) (C : List (Val × Text)) : Nat → Text → Kind → List Val → Option (Node × List (Text × Data))
  | 0, _, _, _ => none
  | depth + 1, path, k, raw =>
    if sizeOk k raw = false then none
    else match elemProp P k raw, elemCommand C k raw, elemName k raw with
      | some prop, some command, some name =>
        match k.child with
        | none => some (.mk name k [], [(key path name, ⟨raw, prop, command⟩)])
        | some cs => match calcOffset raw cs 0 with
          | none => none
          | some i => match decodeList (decodeElem P C depth (childPath k path name)) i raw with
            | none => none
            | some (raw', nodes, es) => some (.mk name k nodes, (key path name, ⟨raw', prop, command⟩) :: es)
      | _, _, _ => none

/-! ### putting elements back -/

/-- `props_index` by name: the identifier, or those of both levels: FormElements4.py:46-53 -/
inductive PropId
  | one (id : Val)
  | two (id child : Val)
deriving DecidableEq

/-- the value as it stands in a list -/
def PropId.val : PropId → Val
  | .one v => v
  | .two a b => .list [a, b]

/-- `prop_index[i]` -/
def PropId.at' : PropId → Nat → Option Val
  | .one v, i => idx v i
  | .two a b, i => [a, b][i]?

/-- `if prop_index:` -/
def PropId.given : PropId → Bool
  | .one v => truthy v
  | .two _ _ => true

/-- the attribute link is renewed: FormElement.py:184-211; only a list can be changed -/
def relinkProp (P : List (Text × PropId)) (k : Kind) (prop : Option Text) (raw : List Val) : Option (List Val) :=
  match prop, k.prop with
  | some p, some cs => match calcOffset raw cs 0 with
    | none => none
    | some i => match raw[i]? with
      | none => none
      | some link =>
        if truthy link = false then some raw
        else match dictGet P p with
          | none => none
          | some ix =>
            if ix.given = false then none
            else match (idx link 0).bind count with
              | none => none
              | some 0 => some raw
              | some 1 => match link with
                | .list l => if 1 < l.length then some (raw.set i (.list (l.set 1 (.list [ix.val])))) else none
                | _ => none
              | some 2 => match link, ix.at' 0, ix.at' 1 with
                | .list l, some a, some b => if 2 < l.length then some (raw.set i (.list ((l.set 1 (.list [a])).set 2 (.list [b])))) else none
                | _, _, _ => none
              | some _ => none
  | _, _ => some raw

/-- the command link is renewed: FormElement.py:213-228; `C` is commands_index by name, its values are the first entries of the commands -/
def relinkCommand (C : List (Text × Val)) (k : Kind) (command : Option Text) (raw : List Val) : Option (List Val) :=
  match command, k.command with
  | some c, some cs => match calcOffset raw cs 0 with
    | none => none
    | some i => match raw[i]? with
      | none => none
      | some link =>
        if truthy link = false then some raw
        else match dictGet C c with
          | none => none
          | some v => if truthy v = false then none else some (raw.set i v)
  | _, _ => some raw

/-- the name is renewed in read-only areas: FormElement.py:176-180 -/
def rename (k : Kind) (name : Text) (raw : List Val) : Option (List Val) :=
  match calcOffset raw k.name 0 with
  | none => none
  | some i => if i < raw.length then some (raw.set i (.str (strEncode name))) else none

/-- FormElement.encode after the entry has been found: FormElement.py:175-232 -/
def relink (P : List (Text × PropId)) (C : List (Text × Val)) (k : Kind) (name key : Text) (d : Data) : Option (List Val) :=
  match (if occurs includr key then rename k name d.raw else some d.raw) with
  | none => none
  | some raw =>
    if occurs include' key || occurs includr key then
      match relinkProp P k d.prop raw with
      | none => none
      | some raw2 => relinkCommand C k d.command raw2
    else some raw

/-- the path of the nested elements: Group.py:43-44, Table.py:61 -/
def childPathIn (k : Kind) (path name : Text) : Text :=
  match k with
  | .group => key path (if name.take 8 = includr then include' ++ name.drop 8 else name)
  | _ => key path name

/-- the loop of encode_list: FormElement.py:149-165 -/
def encodePairs (f : Node → Option (List Val)) : List Node → Option (List Val)
  | [] => some []
  | .mk name k child :: r => match f (.mk name k child), encodePairs f r with
    | some raw, some rest => some (.str k.uuid :: .list raw :: rest)
    | _, _ => none

/-- encode_list: FormElement.py:146-171 -/
def encodeList (f : Node → Option (List Val)) (items : List Node) (i : Nat) (raw : List Val) : Option (List Val) :=
  match encodePairs f items with
  | none => none
  | some result => if i < raw.length then some (raw.take i ++ .str (showNat items.length) :: result ++ raw.drop (i + 1)) else none

/-- encode of one element: FormElement.py:173-232, Group.py:33-48, Table.py:42-63; `D` is elements_data -/
def encodeElem (P : List (Text × PropId)) (C : List (Text × Val)) (D : List (Text × Data)) : Nat → Text → Node → Option (List Val)
  | 0, _, _ => none
  | depth + 1, path, .mk name k child =>
    match dictGet D (key path name) with
    | none => none
    | some d => match relink P C k name (key path name) d with
      | none => none
      | some raw => match k.child, child with
        | some cs, c :: r => match calcOffset raw cs 0 with
          | none => none
          | some i => encodeList (encodeElem P C D depth (childPathIn k path name)) (c :: r) i raw
        | _, _ => some raw

/-! ### attributes, commands, parameters of a form -/

/-- a nested attribute: FormElement.py:336-341 -/
structure Child where
  name : Text
  id : Val
  raw : Val
deriving DecidableEq

/-- an attribute: FormElement.py:309-314 -/
structure PropRec where
  name : Text
  id : Val
  raw : List Val
  child : List Child
deriving DecidableEq

/-- a command (FormElement.py:369-376) or parameter (lines 243-247); for a parameter `id` is not used -/
structure Rec where
  name : Text
  id : Val
  raw : Val
deriving DecidableEq

/-- 'Родитель', 'отдельно', '"#"' -/
def parentWord : Text := "Родитель".toList
def apart : Text := "отдельно".toList
def refWord : Text := "\"#\"".toList

/-- `str_decode(v[i])` -/
def nameAt (v : Val) (i : Nat) : Option Text := match idx v i with
  | some (.str t) => some (strDecode t)
  | _ => none

/-- decode_child: FormElement.py:336-341 -/
def childRec (v : Val) : Option Child := match nameAt v 3, idx v 1 with
  | some name, some id => some ⟨name, id, v⟩
  | _, _ => none

/-- the children of an attribute: FormElement.py:323-326 -/
def childRecs : Nat → List Val → Option (List Child)
  | 0, _ => some []
  | n + 1, v :: r => match childRec v, childRecs n r with
    | some c, some cs => some (c :: cs)
    | _, _ => none
  | _ + 1, [] => none

/-- the reference to the owner of the form is replaced by a word: FormElement.py:316-319 -/
def hideParent (parent : Option Text) (pattern : Val) : Option Val :=
  match pattern with
  | .list (p0 :: p1 :: more) => match p1 with
    | .list (a :: rest) =>
      if a = .str refWord then match rest with
        | b :: rest' => if parent.map Val.str = some b then some (.list (p0 :: .list (a :: .str parentWord :: rest') :: more)) else some pattern
        | [] => none
      else some pattern
    | .str (_ :: _) => some pattern
    | _ => none
  | _ => some pattern

/-- the word is replaced by the reference to the owner: FormElement.py:346-350 -/
def showParent (parent : Option Text) (pattern : Val) : Option Val :=
  match pattern with
  | .list (p0 :: p1 :: more) => match p1 with
    | .list (a :: rest) =>
      if a = .str refWord then match rest with
        | b :: rest' =>
          if b = .str parentWord then match parent with
            | some (c :: u) => some (.list (p0 :: .list (a :: .str (c :: u) :: rest') :: more))
            | _ => some pattern
          else some pattern
        | [] => none
      else some pattern
    | .str (_ :: _) => some pattern
    | _ => none
  | _ => some pattern

/-- FormProps.decode: FormElement.py:307-334: the list as it is left behind, even by an exception, and the attribute -/
def propOut (parent : Option Text) (v : Val) : Val × Option PropRec :=
  match v with
  | .list raw => match nameAt v 3, (raw[1]?).bind (idx · 0), countAt raw 13, raw[5]? with
    | some name, some id, some n, some pattern => match hideParent parent pattern with
      | none => (v, none)
      | some pattern' =>
        let raw1 := raw.set 5 pattern'
        if n = 0 then (.list raw1, some ⟨name, id, raw1, []⟩)
        else match childRecs n (raw1.drop 14) with
          | none => (.list raw1, none)
          | some cs =>
            let raw2 := raw1.take 13 ++ .str apart :: raw1.drop (14 + n)
            (.list raw2, some ⟨name, id, raw2, cs⟩)
    | _, _, _, _ => (v, none)
  | _ => (v, none)

/-- FormProps.encode: FormElement.py:343-360 -/
def propIn (parent : Option Text) (p : PropRec) : Option Val :=
  match p.raw[5]? with
  | none => none
  | some pattern => match showParent parent pattern with
    | none => none
    | some pattern' =>
      let raw1 := p.raw.set 5 pattern'
      match p.child with
      | [] => some (.list raw1)
      | c :: r => if 13 < raw1.length then
          some (.list (raw1.take 13 ++ .str (showNat (c :: r).length) :: ((c :: r).map (·.raw) ++ raw1.drop 14)))
        else none

/-- FormCommands.decode: FormElement.py:368-376 -/
def commandOut (v : Val) : Val × Option Rec := (v, match nameAt v 2, (idx v 1).bind (idx · 0) with
  | some name, some id => some ⟨name, id, v⟩
  | _, _ => none)

/-- FormParams: FormElement.py:242-247, 300-303 -/
def paramOut (v : Val) : Val × Option Rec := (v, (nameAt v 1).map (fun name => ⟨name, .none, v⟩))

/-- the loop of _FormRoot.decode_list: FormElement.py:261-262; `none` is an exception, the entries are left as they are at that moment -/
def rootLoop {α : Type} (f : Val → Val × Option α) : Nat → List Val → List Val × Option (List α)
  | 0, l => (l, some [])
  | _ + 1, [] => ([], none)
  | n + 1, v :: r => match f v with
    | (v', none) => (v' :: r, none)
    | (v', some a) => match rootLoop f n r with
      | (r', none) => (v' :: r', none)
      | (r', some as) => (v' :: r', some (a :: as))

/-- _FormRoot.decode_list: FormElement.py:249-267: the entry of the form as it is left behind, and what has been taken out; exceptions are
swallowed (lines 266-267) -/
def rootOut {α : Type} (f : Val → Val × Option α) (items : Val) : Val × Option (List α) :=
  match items with
  | .list (v0 :: .str t :: r) => match count (.str t) with
    | some (n + 1) => match rootLoop f (n + 1) r with
      | (r', none) => (.list (v0 :: .str t :: r'), none)
      | (r', some as) => (.list (v0 :: .str marker :: r'.drop (n + 1)), some as)
    | _ => (items, none)
  | _ => (items, none)

/-- decode_list on the form: the slot `i` of the form, if there is one -/
def slotOut {α : Type} (f : Val → Val × Option α) (i : Nat) (raw : List Val) : List Val × Option (List α) :=
  match raw[i]? with
  | none => (raw, none)
  | some items => (raw.set i (rootOut f items).1, (rootOut f items).2)

/-- the loop of encode_list -/
def mapAll {α : Type} (f : α → Option Val) : List α → Option (List Val)
  | [] => some []
  | a :: r => match f a, mapAll f r with
    | some v, some vs => some (v :: vs)
    | _, _ => none

/-- _FormRoot.encode_list: FormElement.py:269-286: the changed form, and the entries that were put back (`none` if nothing was) -/
def slotIn {α : Type} (f : α → Option Val) (i : Nat) (items : Option (List α)) (raw : List Val) : Option (List Val × Option (List α)) :=
  match raw[i]? with
  | none => some (raw, none)
  | some v => match idx v 1 with
    | none => none
    | some m =>
      if m = .str marker then match v, items with
        | .list l, some (a :: r) => match mapAll f (a :: r) with
          | none => none
          | some vs => some (raw.set i (.list (l.take 1 ++ .str (showNat (a :: r).length) :: (vs ++ l.drop 2))), items)
        | .list l, _ => some (raw.set i (.list (l.set 1 (.str ['0']))), items)
        | _, _ => none
      else some (raw, none)

/-! ### the whole form -/

/-- what is written to `<form>.elem.json`: FormCore.py:211-218 -/
structure Src where
  props : Option (List PropRec)
  commands : Option (List Rec)
  params : Option (List Rec)
  tree : List Node
  data : List (Text × Data)

/-- create_prop_index_by_id: FormElements4.py:31-38; `none` is TypeError -/
def propsById (props : Option (List PropRec)) : Option PropsById := match props with
  | none => some []
  | some l => if l.all (fun p => hashable p.id && p.child.all (fun c => hashable c.id)) then
      some (l.map (fun p => (p.id, p.name, p.child.map (fun c => (c.id, c.name))))) else none

/-- create_commands_index_by_id: FormElements4.py:40-44 -/
def commandsById (commands : Option (List Rec)) : Option (List (Val × Text)) := match commands with
  | none => some []
  | some l => if l.all (fun c => hashable c.id) then some (l.map (fun c => (c.id, c.name))) else none

/-- create_prop_index_by_name: FormElements4.py:46-53 -/
def propsByName (props : Option (List PropRec)) : List (Text × PropId) := match props with
  | none => []
  | some l => l.flatMap (fun p => (p.name, PropId.one p.id) :: p.child.map (fun c => (p.name ++ '.' :: c.name, PropId.two p.id c.id)))

/-- create_commands_index_by_name: FormElements4.py:55-59; `none` is IndexError or TypeError -/
def commandsByName (commands : Option (List Rec)) : Option (List (Text × Val)) := match commands with
  | none => some []
  | some l => if l.all (fun c => (idx c.raw 1).isSome) then some (l.map (fun c => (c.name, (idx c.raw 1).getD .none))) else none

/-- get_form_elem_index: FormElements4.py:84-95; `root` is `raw[1]` -/
def elemIndex (root : List Val) : Option Nat := match calcOffset root [(18, 2), (3, 0)] 0 with
  | none => none
  | some i => match countAt root i with
    | none => none
    | some n => some (i + n + 1)

/-- `raw[1]` as a list -/
def rootOf (raw : List Val) : Option (List Val) := match (raw[1]? : Option Val) with
  | some (.list l) => some l
  | _ => none

/-- FormElements4.decode: FormElements4.py:21-29, 61-82: the changed form and the sources; `none` is an exception -/
def decodeForm (depth : Nat) (parent : Option Text) (raw : List Val) : Option (List Val × Src) :=
  let a := slotOut (propOut parent) 3 raw
  let b := slotOut commandOut 5 a.1
  match rootOf b.1 with
  | none => none
  | some root => match elemIndex root, propsById a.2, commandsById b.2 with
    | some i, some P, some C => match decodeList (decodeElem P C depth []) i root with
      | none => none
      | some (root', nodes, es) =>
        let c := slotOut paramOut 4 (b.1.set 1 (.list root'))
        some (c.1, ⟨a.2, b.2, c.2, nodes, es⟩)
    | _, _, _ => none

/-- encode_elements: FormElements4.py:121-135 -/
def encodeElements (P : List (Text × PropId)) (C : List (Text × Val)) (depth : Nat) (src : Src) (raw : List Val) : Option (List Val) :=
  match rootOf raw with
  | none => none
  | some root => match elemIndex root with
    | none => none
    | some i => match root[i]? with
      | none => none
      | some v =>
        if v = .str marker then match encodeList (encodeElem P C src.data depth []) src.tree i root with
          | none => none
          | some root' => some (raw.set 1 (.list root'))
        else some raw

/-- FormElements4.encode: FormElements4.py:97-119 -/
def encodeForm (depth : Nat) (parent : Option Text) (raw : List Val) (src : Src) : Option (List Val) :=
  match slotIn (fun r : Rec => some r.raw) 5 src.commands raw with
  | none => none
  | some (raw1, commands) => match slotIn (propIn parent) 3 src.props raw1 with
    | none => none
    | some (raw2, props) => match commandsByName commands with
      | none => none
      | some C => match encodeElements (propsByName props) C depth src raw2 with
        | none => none
        | some raw3 => (slotIn (fun r : Rec => some r.raw) 4 src.params raw3).map (·.1)

/-- FormCore.decode_includes around it: FormCore.py:187-194: after an exception the form is the one that was read, and the sources are
whatever had been taken out up to then (`left`) -/
def takeApart (depth : Nat) (parent : Option Text) (raw : List Val) (left : Src) : List Val × Src :=
  match decodeForm depth parent raw with
  | some r => r
  | none => (raw, left)

end V8.Form
