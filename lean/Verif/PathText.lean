import Verif.Container
import Verif.Code
import Verif.Header
/-
Model of the file names that extraction builds from names it finds in a product: container.py:87-89 (entries of a
container), MetaDataObject/__init__.py:202-206 (folders of objects), organizer_code.py:119-136 with organizer_file.py:94,
103 (areas of modules).  POSIX paths (os.path is posixpath); Windows paths are not modelled here.
-/
namespace V8.Path
open V8.Str V8.Header

/-- posixpath.join(a, b) -/
def join (a b : Text) : Text :=
  if b.head? = some '/' then b
  else if a = [] ∨ a.getLast? = some '/' then a ++ b
  else a ++ '/' :: b

/-- posixpath.join(a, *l) -/
def joins (a : Text) (l : List Text) : Text := l.foldl join a

/-- Container.extract_file for every entry of every container that `extract` finds, with the path that is opened for
writing and the bytes: container_reader.py:30-37, container.py:80-81, 88-98 (deflate=False, recursive=False, as the first
stage calls it: v8unpack.py:49).  `n` is `container_index`. -/
def entryWrites (folder : Text) : Nat → List (List File) → List (Text × Bytes)
  | _, [] => []
  | n, files :: rest =>
    files.map (fun x => (join (join folder (Dec.showNat n)) x.name, x.data)) ++ entryWrites folder (n + 1) rest

/-- the first stage of `extract`: container_reader.py:11-45 -/
def extractTo (f : Bytes) (fuel steps : Nat) (folder : Text) : Except Err (List (Text × Bytes)) :=
  match extractLoop f fuel steps 0 with
  | .error e => .error e
  | .ok outs => .ok (entryWrites folder 0 outs)

/-- set_write_decode_mode: MetaDataObject/__init__.py:202-206, the folder made for an object of this name -/
def objectFolder (destDir destPath name : Text) : Text := join destDir (join destPath name)

/-- parse_include_path: organizer_code.py:119-136; the path is relative to the folder of sources -/
def includePath (index : Text → Option Text) (descent : Bool) (key path : Text) : Text × Text :=
  let tmp := split '_' ((index key).getD key)
  let file := tmp.getLast?.getD [] ++ ".bsl".toList
  let p0 := if descent then join "..".toList "..".toList else "..".toList
  let p1 := if 1 < tmp.length then joins p0 (tmp.dropLast.map (fun c => if c = [] then "..".toList else c)) else p0
  (if p1 = "..".toList then path else p1, file)

/-- the file an area is written to: organizer_file.py:91-94, 100-103, helper.py:91 -/
def includeFile (index : Text → Option Text) (descent : Bool) (destDir key path : Text) : Text :=
  let r := includePath index descent key path
  join (join destDir r.1) r.2

/-! ### Specification: where a path leads -/

/-- one step along a path -/
def step (at_ : List Text) (c : Text) : List Text :=
  if c = "..".toList then at_.dropLast else if c = ".".toList ∨ c = [] then at_ else at_ ++ [c]

/-- the place in the file system an absolute path names: the names of the folders from the root (no symbolic links).
This is os.path.abspath as a list of names. -/
def place (p : Text) : List Text := (split '/' p).foldl step []

/-- a name that is a single name in a folder -/
def Plain (n : Text) : Prop := '/' ∉ n ∧ n ≠ [] ∧ n ≠ ".".toList ∧ n ≠ "..".toList

/-- the absolute path of a place -/
def pathOf (p : List Text) : Text := p.flatMap ('/' :: ·)

end V8.Path
