import Verif.Text
/-
JSON values of index files and the dictionary merge of /repo/src/v8unpack/helper.py:416-501 (update_dict, _update_dict,
check_index).
-/
namespace V8.Json

mutual
/-- a JSON value of an index file.  Simplification: numbers, booleans and other scalars are `scalar` with their text; the
elements of a JSON list are kept as their text, since the code only concatenates lists. -/
inductive J where
  | null
  | str (s : Text)
  | scalar (s : Text)
  | arr (items : List Text)
  | obj (d : D)
/-- a Python dict, in insertion order -/
inductive D where
  | nil
  | cons (k : Text) (v : J) (r : D)
end

namespace D

/-- `d[k]` / `k in d` -/
def get : D → Text → Option J
  | nil, _ => none
  | cons k v r, x => if k = x then some v else r.get x

/-- `d[k] = v`: in place for a key that is there, else at the end -/
def set : D → Text → J → D
  | nil, x, j => cons x j nil
  | cons k v r, x, j => if k = x then cons k j r else cons k v (r.set x j)

/-- `d.pop(k, None)` -/
def erase : D → Text → D
  | nil, _ => nil
  | cons k v r, x => if k = x then r else cons k v (r.erase x)

/-- keys in order -/
def keys : D → List Text
  | nil => []
  | cons k _ r => k :: r.keys

end D

/-- _update_dict: helper.py:427-468 for `base` and `new` dictionaries; `none` is the ExtException (a dict over something that
is none, or a list over something without extend) -/
def merge (base : D) : D → Option D
  | .nil => some base
  | .cons k v r =>
    match base.get k with
    | none => merge (base.set k v) r
    | some .null => merge (base.set k v) r
    | some b =>
      match v with
      | .obj nd => match b with
        | .obj bd => (merge bd nd).bind (fun x => merge (base.set k (.obj x)) r)
        | _ => none
      | .arr l => match b with
        | .arr l0 => merge (base.set k (.arr (l0 ++ l))) r
        | _ => none
      | v => merge (base.set k v) r
termination_by structural new => new

/-- update_dict: helper.py:416-424 -/
def updateDict : List D → Option D
  | [] => none
  | [d] => merge .nil d
  | a :: b :: r => (b :: r).foldlM merge a

/-- check_index: helper.py:484-501, the files already loaded: `main` is the index file, `subs` the files it names under
`index.json`, in order.  (load_json refuses anything but a dictionary, helper.py:471-481.) -/
def checkIndex (main : D) (subs : List D) : Option D := updateDict (subs ++ [main.erase "index.json".toList])

end V8.Json
