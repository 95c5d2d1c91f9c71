import Verif.JsonLemmas
import Verif.Descent
/-
Model of /repo/src/v8unpack/index.py (get_from_index, update_index, get_dest_path) and of the index part of
/repo/src/v8unpack/organizer_file.py (_pack_index_elem, _pack_index, _pack).  Posix paths.
-/
namespace V8.Index
open V8.Str V8.Json V8.Descent

/-- posixpath.join of two parts -/
def pjoin (a b : Text) : Text :=
  if starts ['/'] b then b
  else if a = [] ∨ ends ['/'] a then a ++ b
  else a ++ '/' :: b

/-- posixpath.basename: what follows the last slash -/
def basename (p : Text) : Text := (split '/' p).getLast?.getD []

/-- posixpath.dirname: what precedes the last slash, without further slashes at its end unless it has nothing else -/
def dirname (p : Text) : Text :=
  let parts := (split '/' p).dropLast
  if parts.all (· = []) then parts.map (fun _ => '/')
  else ((join '/' parts).reverse.dropWhile (· = '/')).reverse

/-- outcome of get_from_index: a KeyError, a TypeError (reported as ExtException), or a value -/
inductive Found where
  | keyError
  | typeError
  | value (j : J)

/-- the walk through the folders: index.py:12-16 -/
def walk : J → List Text → Found
  | j, [] => .value j
  | .obj d, k :: r => match d.get k with
    | none => .keyError
    | some v => walk v r
  | _, _ :: _ => .typeError
termination_by _ p => p.length

/-- get_from_index: index.py:9-26 (the normpath of line 13 is overwritten by line 14 and has no effect) -/
def getFromIndex (index : D) (path file : Text) : Found :=
  match walk (.obj index) (if path = [] then [] else split '/' path) with
  | .value (.obj d) => match d.get file with
    | some v => .value v
    | none => match d.get ['*'] with
      | none => .keyError
      | some (.str s) => .value (.str (pjoin s file))
      | some _ => .typeError
  | .value _ => .typeError
  | .keyError => .keyError
  | .typeError => .typeError

/-- where the root of indexed files is, seen from the source folder: index.py:66-70 and organizer_file.py:158-162 -/
def upFrom (descent : Bool) (p : Text) : Text := pjoin (pjoin ['.', '.'] (if descent then ['.', '.'] else [])) p

/-- get_dest_path: index.py:54-85; `none` is the ExtException.  (The makedirs of line 73 is not modelled.)  `null`, `""` and
`{}`/`[]` entries are falsy and leave the file where it is; any other value that is no text is an error. -/
def getDestPath (index : Option D) (path file : Text) (descent : Bool) : Option (Text × Text) :=
  match index with
  | none => some (path, file)
  | some .nil => some (path, file)
  | some idx => match getFromIndex idx path file with
    | .keyError => some (path, file)
    | .typeError => none
    | .value .null => some (path, file)
    | .value (.str s) => if s = [] then some (path, file) else some (upFrom descent (dirname s), basename s)
    | .value (.obj .nil) => some (path, file)
    | .value (.arr []) => some (path, file)
    | .value _ => none

/-! ### updating an index -/

mutual
/-- one entry of a source tree -/
inductive Node where
  | file
  | dir (entries : Entries)
/-- the listing of a folder -/
inductive Entries where
  | nil
  | cons (name : Text) (n : Node) (r : Entries)
end

/-- an empty folder -/
def Entries.isEmpty : Entries → Bool
  | .nil => true
  | .cons _ _ _ => false

/-- _update_index: index.py:30-42; `none` is an error (an entry without logical name, or an index entry that is no dictionary
where the tree has a folder).  Simplification: a folder whose name would be changed by removing a version suffix is an error
here (in the code it is then looked up under the changed name); a non-empty folder where the index has a text is an error here
(the code passes over those of its files whose names happen to be substrings of that text). -/
def updateIndex (destDir : Text) : D → Text → Entries → Option D
  | idx, _, .nil => some idx
  | idx, path, .cons name .file r =>
    match removeDescent name with
    | none => none
    | some e =>
      match idx.get e with
      | some _ => updateIndex destDir idx path r
      | none => updateIndex destDir (idx.set e (.str (if destDir = [] then [] else pjoin (pjoin destDir path) e))) path r
  | idx, path, .cons name (.dir es) r =>
    match removeDescent name with
    | none => none
    | some e =>
      if e = name then
        match idx.get e with
        | none => (updateIndex destDir .nil (pjoin path e) es).bind (fun sub => updateIndex destDir (idx.set e (.obj sub)) path r)
        | some (.obj d) => (updateIndex destDir d (pjoin path e) es).bind (fun sub => updateIndex destDir (idx.set e (.obj sub)) path r)
        | some _ => if es.isEmpty then updateIndex destDir idx path r else none
      else none

end V8.Index
