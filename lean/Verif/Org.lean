import Verif.Code
import Verif.Areas
import Verif.Encoding
/-
Model of the organizer for a whole folder, without versions and with no index but the table of include areas:
/repo/src/v8unpack/organizer_file.py:13-109 (unpack, _unpack, unpack_file, unpack_code_file), 133-152, 253-296 (pack, _pack, _pack_file),
/repo/src/v8unpack/organizer_code.py:20-117, /repo/src/v8unpack/organizer_form_elem.py:14-21, 110-142,
/repo/src/v8unpack/helper.py:84-98 (txt_write), 157-159 (clear_dir).

Paths are lists of components from the root of the file system.  The files of elements are kept as their content (Areas.Elems), the JSON text in between
is C58.  Folders without files are not modelled (the extraction does not create them).
-/
namespace V8.Org
open V8.Str V8.Enc V8.Code V8.Brace

/-- a file: its folder and its name -/
abbrev File := Dir × Text

/-- the content of a file: bytes, or the elements of a form -/
inductive Content (V : Type) where
  | bytes (b : Bytes)
  | elems (e : V8.Areas.Elems V)

/-- the files of the computer -/
abbrev World (V : Type) := File → Option (Content V)

/-- the folder of the sources, the table of include areas of the index (`index.get('Области include')`), whether text mode writes CR LF; `deep` is
`descent is not None`: without a version (v8unpack.py:57, 98-102) it is false, with one (Verif/Versions.lean) true -/
structure Sys where
  src : Dir
  areas : Text → Option Text
  win : Bool
  deep : Bool := false

/-- the parameters of the splitting: organizer_code.py:119-136 -/
def Sys.env (s : Sys) : V8.Code.Env := ⟨s.src, s.areas, s.deep⟩

/-- `entry.endswith('.bsl')`: organizer_file.py:40, 270 -/
def isCode (n : Text) : Bool := ends ".bsl".toList n
/-- `elif entry.endswith('.elem.json')`: organizer_file.py:42, 274 -/
def isElem (n : Text) : Bool := !isCode n && ends ".elem.json".toList n

/-- one file written -/
abbrev Write (V : Type) := File × Content V

def put {V : Type} (w : World V) (x : Write V) : World V := fun f => if f = x.1 then some x.2 else w f

/-- the world after writing files one after the other -/
def puts {V : Type} (w : World V) (l : List (Write V)) : World V := l.foldl put w

/-- clear_dir: helper.py:157-159 (organizer_file.py:19) -/
def clear {V : Type} (s : Sys) (w : World V) : World V := fun f => if s.src <+: f.1 then none else w f

/-- txt_write: helper.py:84-98 -/
noncomputable def txt {V : Type} (s : Sys) (t : Text) : Content V := .bytes (utf8 (osWrite s.win t))

/-- a file below the folder that is taken over: relative folder, name, content -/
abbrev Item (V : Type) := Dir × Text × Content V

/-- what unpack_code_file writes: organizer_file.py:80-103, reading with 'utf-8-sig' (organizer_code.py:27); `none` is an exception -/
noncomputable def codeWrites {V : Type} (s : Sys) (i : Item V) : Option (List (Write V)) := match i.2.2 with
  | .elems _ => none
  | .bytes b => (utf8SigText b).bind (fun t => (V8.Code.unpack (universal t)).map (fun a => a.filterMap (fun p =>
      if p.1 = "root".toList then some ((s.src ++ i.1, i.2.1), txt s p.2.data)
      else if p.2.typ = .incr then none
      else some (parse s.env p.1 (s.src ++ i.1), txt s p.2.data))))

/-- the file of an area of elements: parse_include_path with `file_extension=file_name[-9::]`, organizer_form_elem.py:117-121, 156-158 -/
def elemFile (s : Sys) (key : Text) (cur : Dir) : File :=
  ((parse s.env key cur).1, ((split '_' (s.env.name key)).getLast?.getD []) ++ ".elem.json".toList)

/-- what OrganizerFormElem.unpack writes: organizer_form_elem.py:14-21, 110-128 -/
def elemWrites {V : Type} (names : V → List Text) (s : Sys) (i : Item V) : Option (List (Write V)) := match i.2.2 with
  | .bytes _ => none
  | .elems e => (V8.Areas.areasOut names e.tree [] e.data).map (fun q =>
      (V8.Areas.assign (q.2.2.foldl (fun d a => V8.Areas.assign d a.1 a.2) []) V8.Areas.rootWord ⟨q.1, q.2.1, e.extra⟩).map (fun a =>
        (if a.1 = V8.Areas.rootWord then (s.src ++ i.1, i.2.1) else elemFile s a.1 (s.src ++ i.1), .elems a.2)))

/-- the copies: organizer_file.py:44-46, 57-78 -/
def plainWrites {V : Type} (s : Sys) (l : List (Item V)) : List (Write V) :=
  (l.filter (fun i => !isCode i.2.1 && !isElem i.2.1)).map (fun i => ((s.src ++ i.1, i.2.1), i.2.2))

/-- all writes of the tasks of one kind; `none` if one of them fails -/
def tasks {V : Type} (f : Item V → Option (List (Write V))) (l : List (Item V)) : Option (List (Write V)) := (l.mapM f).map List.flatten

/-- OrganizerFile.unpack: organizer_file.py:13-28: `w'` is the world after a run that lays out the files `l`, the folder being listed in the order of `l`.
The writes of the module tasks may come in any order (they run in a pool), then those of the tasks for elements. -/
def Unpacked {V : Type} (names : V → List Text) (s : Sys) (w : World V) (l : List (Item V)) (w' : World V) : Prop :=
  ∃ code elem code' elem', tasks (codeWrites s) (l.filter (fun i => isCode i.2.1)) = some code ∧
    tasks (elemWrites names s) (l.filter (fun i => isElem i.2.1)) = some elem ∧ code'.Perm code ∧ elem'.Perm elem ∧
    w' = puts (clear s w) (plainWrites s l ++ code' ++ elem')

/-! ### pack -/

/-- text files as `open(..., 'r', encoding='utf-8')` reads them: organizer_code.py:84 -/
def texts {V : Type} (w : World V) : V8.Code.FS := fun f => match w f with
  | some (.bytes b) => (utf8Text b).map universal
  | _ => none

/-- files of elements as json_read reads them -/
def forms {V : Type} (w : World V) : File → Option (V8.Areas.Elems V) := fun f => match w f with
  | some (.elems e) => some e
  | _ => none

/-- what is built of one file of the sources: organizer_file.py:253-296; `fuel` limits the nesting of areas -/
noncomputable def packOne {V : Type} (names : V → List Text) (s : Sys) (w : World V) (fuel : Nat) (f : Dir × Text) : Option (Content V) :=
  if isCode f.2 then (V8.Code.packFile s.env (texts w) fuel (s.src ++ f.1, f.2) none).map (txt s)
  else if isElem f.2 then
    (V8.Areas.pack names (fun key => elemFile s key (s.src ++ f.1)) (s.src ++ f.1, f.2) (forms w)).map .elems
  else w (s.src ++ f.1, f.2)

/-- the folder that is built, by relative folder and name: organizer_file.py:133-152; the files are built in the order of `ls` -/
noncomputable def pack {V : Type} (names : V → List Text) (s : Sys) (w : World V) (fuel : Nat) : List (Dir × Text) → Option (Dir × Text → Option (Content V))
  | [] => some (fun _ => none)
  | f :: r => match packOne names s w fuel f with
    | none => none
    | some c => (pack names s w fuel r).map (fun d g => (d g).or (if g = f then some c else none))

/-- `ls` lists the files below the folder of the sources -/
def Listing {V : Type} (s : Sys) (w : World V) (ls : List (Dir × Text)) : Prop := ∀ p n, (p, n) ∈ ls ↔ w (s.src ++ p, n) ≠ none

end V8.Org
