import Verif.Decimal
import Verif.Sort
import Verif.Include
/-
Model of the lists of nested objects inside the raw data of an object, both ways, on the trees themselves:
/repo/src/v8unpack/MetaObject/__init__.py:64-189 (decode_includes, decode_include, fill_header_includes, fill_header_include),
/repo/src/v8unpack/MetaDataObject/core/IncludeSimple.py:19-31, 40-41 (objects kept inside their parent) and the places that decide
whether the lists are filled: /repo/src/v8unpack/MetaDataObject/__init__.py:136-158, /repo/src/v8unpack/MetaObject/Configuration.py:117-118,
/repo/src/v8unpack/MetaObject/ConfigurationExtension.py:87-88, /repo/src/v8unpack/MetaObject/ExternalDataProcessor.py:76-77.

Verif/Include.lean models the second half with the lists reduced to identifiers; here the trees are the ones of a brace file.
-/
namespace V8.Nested
open V8.Brace V8.Dec
open V8.Encode (lower)


/-- what happens to an object that is kept inside its parent, by the class of its type -/
inductive Handler where
  /-- there is no such class: the data stay where they are (MetaObject/__init__.py:113-116) -/
  | missing
  /-- the class has no decode_internal_include: AttributeError -/
  | outside
  /-- the class is an IncludeSimple: lines 119-124 -/
  | inside
deriving DecidableEq

/-- the enumeration MetaDataTypes and the classes; `ident` is the identifier decode_internal_include returns for the data of an object
(`none` is an exception) -/
structure Env where
  nameOf : Text → Option Text
  uuidOf : Text → Option Text
  handler : Text → Handler
  ident : Text → Val → Option Text

/-- an object found in a list: its type, its identifier, and what stood in the list -/
structure Obj where
  ty : Text
  uu : Text
  orig : Val
deriving DecidableEq

/-- MetaDataTypes(uuid): lines 81-82, 166-168; a value that is no text is no member -/
def typeOf (E : Env) : Val → Option Text
  | .str u => E.nameOf u
  | _ => none

/-- the loop over the objects of one type: lines 101-124; `none` is an exception.  (With auto_include the data of inner objects have lost
their identifier, but the whole list is replaced then: lines 125-126.) -/
def decodeItems (E : Env) (auto : Bool) (ty : Text) : Nat → List Val → Option (List Val × List Obj)
  | 0, items => some (items, [])
  | _ + 1, [] => none
  | n + 1, .str s :: r => (decodeItems E auto ty n r).map (fun p => (.str s :: p.1, ⟨ty, s, .str s⟩ :: p.2))
  | n + 1, .none :: r => (decodeItems E auto ty n r).map (fun p => (.none :: p.1, p.2))
  | n + 1, .list l :: r => match E.handler ty with
    | .missing => (decodeItems E auto ty n r).map (fun p => (.list l :: p.1, p.2))
    | .outside => none
    | .inside => match E.ident ty (.list l) with
      | none => none
      | some u => (decodeItems E auto ty n r).map (fun p => ((if auto then .list l else .str u) :: p.1, ⟨ty, u, .list l⟩ :: p.2))

/-- one list: lines 77-126: the new value of `include[i + 3]` and the objects.  A list that is no list is treated as an exception
(a text there could also be passed over by chance; brace files of the platform have lists). -/
def decodeSlot (E : Env) (auto : Bool) : Val → Option (Val × List Obj)
  | .list (t :: .str n :: items) => match parseInt n with
    | none => none
    | some c => match typeOf E t with
      | none => if c ≠ 0 ∧ items = [] then none else some (.list (t :: .str n :: items), [])
      | some ty =>
        if c = 0 then some (.list (t :: .str n :: items), [])
        else (decodeItems E auto ty c.toNat items).map (fun p =>
          if auto = true ∧ p.2 ≠ [] then (.str ty, p.2) else (.list (t :: .str n :: p.1), p.2))
  | _ => none

/-- the folder that is made for a list: lines 97, 104-105, 117-118 (`os.mkdir` when the first object is met) -/
def folderOf (E : Env) : Val → Option Text
  | .list (t :: .str n :: x :: _) => match parseInt n, typeOf E t with
    | some c, some ty => if c ≤ 0 then none else match x with
      | .str _ => some ty
      | .list _ => if E.handler ty = .missing then none else some ty
      | .none => none
    | _, _ => none
  | _ => none

/-- all lists: lines 77-126; `made` are the folders that are there already, in which case os.mkdir fails (FileExistsError) -/
def decodeSlots (E : Env) (auto : Bool) : List Text → Nat → List Val → Option (List Val × List Obj)
  | _, 0, slots => some (slots, [])
  | _, _ + 1, [] => none
  | made, n + 1, s :: r => match decodeSlot E auto s with
    | none => none
    | some (s', os) => match folderOf E s with
      | some f => if f ∈ made then none
        else (decodeSlots E auto (f :: made) n r).map (fun p => (s' :: p.1, os ++ p.2))
      | none => (decodeSlots E auto made n r).map (fun p => (s' :: p.1, os ++ p.2))

/-- decode_include: lines 71-126: the list afterwards and the objects (files to go on with, and the inner objects); the destination
folder is new (MetaDataObject/__init__.py:199-203) -/
def decodeInclude (E : Env) (auto : Bool) : List Val → Option (List Val × List Obj)
  | a :: b :: .str n :: slots => match parseInt n with
    | none => none
    | some c => (decodeSlots E auto [] c.toNat slots).map (fun p => (a :: b :: .str n :: p.1, p.2))
  | _ => none

/-- what a parent receives for a nested object: helper.py:243-253; `data` is get_internal_data (MetaDataObject/__init__.py:104-105: the
identifier; IncludeSimple.py:40-41: the raw data) -/
structure Entry where
  ty : Text
  uu : Text
  nm : Text
  data : Val
deriving DecidableEq

/-- include_index.get(type) -/
def ofType (ty : Text) (es : List Entry) : List Entry := es.filter (fun e => decide (e.ty = ty))

/-- internal_data_uuid: lines 175-177, 183: a later entry replaces an earlier one -/
def lookup (es : List Entry) (u : Text) : Option Entry := es.reverse.find? (fun e => decide (lower e.uu = lower u))

/-- lines 178-187; `none` is an exception -/
def fillItems (es : List Entry) : Nat → List Val → Option (List Val)
  | 0, items => some items
  | _ + 1, [] => none
  | n + 1, .str u :: r => match lookup es u with
    | none => none
    | some e => (fillItems es n r).map (fun r' => e.data :: r')
  | _ + 1, _ :: _ => none

/-- fill_header_include: lines 148-189; `none` is an exception -/
def fillSlot (E : Env) (es : List Entry) : Val → Option Val
  | .str ty => match E.uuidOf ty with
    | none => none
    | some u =>
      let objs := (sortBy Entry.nm (ofType ty es)).map Entry.data
      some (.list (.str u :: .str (showNat objs.length) :: objs))
  | .list (t :: .str n :: items) => match parseInt n with
    | none => none
    | some c => match typeOf E t with
      | none => some (.list (t :: .str n :: items))
      | some ty =>
        if ofType ty es = [] then some (.list (t :: .str n :: items))
        else (fillItems (ofType ty es) c.toNat items).map (fun r => .list (t :: .str n :: r))
  | .list _ => none
  | .none => some .none

/-- fill_header_includes: lines 141-143 -/
def fillSlots (E : Env) (es : List Entry) : Nat → List Val → Option (List Val)
  | 0, slots => some slots
  | _ + 1, [] => none
  | n + 1, s :: r => (fillSlot E es s).bind (fun s' => (fillSlots E es n r).map (fun r' => s' :: r'))

/-- one of the includes: lines 132-145 -/
def fillInclude (E : Env) (es : List Entry) : List Val → Option (List Val)
  | a :: b :: .str n :: slots => match parseInt n with
    | none => none
    | some c => (fillSlots E es c.toNat slots).map (fun r => a :: b :: .str n :: r)
  | _ => none

/-- the lists as they are written: an object fills them if something was delivered (MetaDataObject/__init__.py:157-158), the product itself
only with the option auto_include as well (Configuration.py:117-118, ConfigurationExtension.py:87-88, ExternalDataProcessor.py:76-77) -/
def buildInclude (E : Env) (product auto : Bool) (es : List Entry) (inc : List Val) : Option (List Val) :=
  if es = [] ∨ (product = true ∧ auto = false) then some inc else fillInclude E es inc

end V8.Nested
