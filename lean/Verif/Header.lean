import Verif.Module
import Verif.Decimal
/-
Model of the common part of every metadata object: /repo/src/v8unpack/helper.py:115-154 (decode_header, encode_header).
The header is the list inside the raw data of an object that `get_decode_header` returns; it is changed in place, so that the
functions below return the changed list.
-/
namespace V8.Header
open V8.Module V8.Brace V8.Dec

/-- what decode_header records about the object (`meta_obj.header`) -/
structure Info where
  uuid : Text
  name : Text
  name2 : List (Text × Text)
  comment : Text
deriving DecidableEq

/-- exceptions -/
inductive HErr
  | header     -- ValueError 'Заголовок определен не верно' (line 121)
  | other      -- TypeError, IndexError or ValueError of the rest
deriving DecidableEq, Repr

/-- `l[i]` as a string -/
def strAt (l : List Val) (i : Nat) : Option Text := match l[i]? with
  | some (.str s) => some s
  | _ => none

/-- `l[i]` as a list -/
def listAt (l : List Val) (i : Nat) : Option (List Val) := match l[i]? with
  | some (.list s) => some s
  | _ => none

/-- `obj['name2'][k] = v` -/
def put (d : List (Text × Text)) (k v : Text) : List (Text × Text) :=
  if d.any (fun p => decide (p.1 = k)) then d.map (fun p => if p.1 = k then (k, v) else p) else d ++ [(k, v)]

/-- the loop over the languages: lines 130-131; `names` is `header[3]` -/
def readNames (names : List Val) : Nat → Nat → List (Text × Text) → Option (List (Text × Text))
  | 0, _, d => some d
  | n + 1, i, d => match strAt names (i * 2 + 1), strAt names (i * 2 + 2) with
    | some k, some v => readNames names n (i + 1) (put d (strDecode k) (strDecode v))
    | _, _ => none

/-- the name without the prefix: lines 124-127 -/
def stripped (p name : Text) : Text := if p ≠ [] ∧ p.isPrefixOf name then name.drop p.length else name

/-- `header[1][2] = u` -/
def setUuid (h : List Val) (u : Text) : Option (List Val) := match listAt h 1 with
  | some l => if 2 < l.length then some (h.set 1 (.list (l.set 2 (.str u)))) else none
  | none => none

/-- 'в отдельном файле': line 142 -/
def elsewhere : Text := "в отдельном файле".toList

/-- decode_header: lines 115-143.  `valid` is `uuid.UUID` without an exception; `p` is the option `prefix` ('' if not given);
`sep` is `id_in_separate_file`. -/
def decodeHeader (valid : Text → Bool) (p : Text) (sep : Bool) (h : List Val) : Except HErr (Info × List Val) :=
  match (listAt h 1).bind (fun l => strAt l 2) with
  | none => .error .header
  | some u =>
    if valid u = false then .error .header
    else match strAt h 2, listAt h 3, strAt h 4 with
      | some tok, some names, some com =>
        match (strAt names 0).bind parseInt with
        | none => .error .other
        | some n =>
          match readNames names n.toNat 0 [] with
          | none => .error .other
          | some d =>
            let name := stripped p (strDecode tok)
            let h1 := if p ≠ [] ∧ p.isPrefixOf (strDecode tok) then h.set 2 (.str (strEncode name)) else h
            let info : Info := { uuid := u, name := name, name2 := d, comment := strDecode com }
            if sep then match setUuid h1 elsewhere with
              | some h2 => .ok (info, h2)
              | none => .error .other
            else .ok (info, h1)
      | _, _, _ => .error .other

/-- the object is a native one, not borrowed from another configuration: line 152, `len(header) < 6 or header[5] == '0'` -/
def native (h : List Val) : Bool := decide (h.length < 6) || decide (h[5]? = some (.str ['0']))

/-- encode_header: lines 146-154.  `parent` is `parent_id`; `options` is never empty during a build (it has `obj_version`:
/repo/src/v8unpack/decoder.py:42, 49, 57). -/
def encodeHeader (p parent : Text) (info : Info) (h : List Val) : Option (List Val) :=
  match setUuid h info.uuid with
  | none => none
  | some h1 =>
    if '/' ∉ parent ∧ native h1 then
      if 2 < h1.length then some (h1.set 2 (.str (strEncode (p ++ info.name)))) else none
    else some h1

end V8.Header
