import Verif.Sort
import Verif.Encode
/-
Model of the filling of the lists of nested objects in a parent header:
/repo/src/v8unpack/MetaObject/__init__.py:132-189 (fill_header_includes, fill_header_include).
-/
namespace V8.Encode

/-- one element of a list of nested objects: a string (an identifier) or an embedded structure -/
inductive Item where
  | str (s : Text)
  | data (d : Text)
deriving DecidableEq

/-- one slot `include[i + 3]` of a header: the name of a type (automatic inclusion: decode_include line 123) or the list
`[type uuid, count, *objects]` -/
inductive Slot where
  | auto (ty : Text)
  | typed (tyUuid : Text) (count : Nat) (items : List Item)
deriving DecidableEq

/-- the enumeration MetaDataTypes (/repo/src/v8unpack/metadata_types.py): name and uuid of each type.  A parameter of the model. -/
structure Types where
  nameOf : Text → Option Text
  uuidOf : Text → Option Text

/-- lower() of an identifier (hexadecimal digits) -/
def lower (s : Text) : Text := s.map Char.toLower

/-- `include_index.get(type)`: the entries of one type in order of arrival -/
def ofType (ty : Text) (es : List Entry) : List Entry := es.filter (fun e => decide (e.ty = ty))

/-- internal_data_uuid: the dictionary is filled in order, a later entry replaces an earlier one: lines 171-173 -/
def lookupUuid (es : List Entry) (u : Text) : Option Entry := es.reverse.find? (fun e => decide (lower e.uu = lower u))

/-- the loop over the recorded objects: lines 174-184; `none` is an exception -/
def fillItems (es : List Entry) : Nat → List Item → Option (List Item)
  | 0, items => some items
  | _ + 1, [] => none
  | _ + 1, .data _ :: _ => none
  | n + 1, .str u :: r =>
    match lookupUuid es u with
    | none => none
    | some e => (fillItems es n r).map (fun r' => .data e.data :: r')

/-- fill_header_include: lines 147-189; `none` is an exception -/
def fillSlot (T : Types) (es : List Entry) : Slot → Option Slot
  | .auto ty =>
    match T.uuidOf ty with
    | none => none
    | some u =>
      let objs := (sortBy Entry.nm (ofType ty es)).map (fun e => Item.data e.data)
      some (.typed u objs.length objs)
  | .typed u n items =>
    match T.nameOf u with
    | none => some (.typed u n items)
    | some ty =>
      if ofType ty es = [] then some (.typed u n items)
      else (fillItems (ofType ty es) n items).map (fun r => .typed u n r)

/-- fill_header_includes: lines 132-145: slot after slot -/
def fillSlots (T : Types) (es : List Entry) : List Slot → Option (List Slot)
  | [] => some []
  | s :: r => (fillSlot T es s).bind (fun s' => (fillSlots T es r).map (fun r' => s' :: r'))

end V8.Encode
