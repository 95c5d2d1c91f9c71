import Verif.Org
import Verif.OrgIndex
import Verif.Descent
/-
Model of the organizer for a whole folder with versions (the option `descent`), with no index but the table of include areas:
/repo/src/v8unpack/organizer_file_ce.py:7-61 (OrganizerFileCE), /repo/src/v8unpack/organizer_file.py:13-109 (unpack, _unpack, unpack_file,
unpack_code_file), 133-152, 253-296 (pack, _pack, _pack_file), /repo/src/v8unpack/organizer_code.py:69-117 (pack, pack_file),
/repo/src/v8unpack/organizer_form_elem.py:14-21, 110-142, /repo/src/v8unpack/helper.py:343-399.

Worlds, files and areas are those of Verif/Org.lean (`Sys.deep` is true here), the names of versions those of Verif/Descent.lean.  POSIX paths: the test for
`\src\` (organizer_file.py:63, 95, organizer_code.py:82, 103) never holds.
-/
namespace V8.Versions
open V8.Str V8.Enc V8.Code V8.Brace V8.Org V8.Descent

/-- `dir` is what os.listdir, os.path.isfile and os.path.isdir show of the folder `p`: helper.py:357-374, organizer_file_ce.py:46-60 -/
def Shows {V : Type} (w : World V) (p : Dir) (dir : Folder) : Prop :=
  (∀ n, isFile dir n = true ↔ w (p, n) ≠ none) ∧ (∀ n, (n, none) ∈ dir ↔ ∃ q m, w (p ++ n :: q, m) ≠ none)

/-- `dest_path.startswith(dest_dir)`: organizer_file.py:63, 95; the comparison is one of texts -/
def inside (s : Sys) (p : Dir) : Bool := starts (V8.Path.pathOf s.src) (V8.Path.pathOf p)

/-! ### unpack -/

/-- a file to be saved: where, the content, and the comparison with the file of an older version (`none`: it fails) -/
structure Put (V : Type) where
  file : Org.File
  content : Content V
  same : Content V → Option Bool

/-- equal_binary_file: organizer_file.py:111-119 -/
noncomputable def sameBytes {V : Type} (c : Content V) : Content V → Option Bool := fun old =>
  open Classical in some (decide (old = c))

/-- equal_code_file: organizer_file.py:121-126, txt_read helper.py:67-81 (utf-8-sig) -/
def sameText {V : Type} (t : Text) : Content V → Option Bool
  | .bytes b => (utf8SigText b).map (fun u => decide (universal u = t))
  | .elems _ => none

/-- OrganizerFileCE.unpack_get_descent_filename: organizer_file_ce.py:9-24, the name the file is saved under; `some none` when it is not saved; `none` is an
exception (the file to compare with is not there: helper.py:387 gives a name without looking) -/
def saveName {V : Type} (view : World V) (dir : Folder) (d : Nat) (x : Put V) : Option (Option Text) :=
  if isFile dir (descentName x.file.2 d) then some (some (descentName x.file.2 d))
  else match near dir x.file.2 d with
    | none => some (some (descentName x.file.2 d))
    | some n => match view (x.file.1, n) with
      | none => none
      | some old => (x.same old).map (fun b => if b then none else some (descentName x.file.2 d))

/-- saving one file: organizer_file.py:62-76, 94-103.  `view` is the state of the files when the decision is taken, `w` the state when the file is
written; files outside the source folder get no version.
Simplification: writing to a name that a folder has (an exception) is not modelled. -/
def saveOne {V : Type} (s : Sys) (d : Nat) (view w : World V) (dir : Folder) (x : Put V) : Option (World V) :=
  if inside s x.file.1 then (saveName view dir d x).map (fun r => match r with
    | none => w
    | some n => put w ((x.file.1, n), x.content))
  else some (put w (x.file, x.content))

/-- files saved one after the other: `Saves s d pool h l h'`: from the history `h` of states (newest first) to `h'`.  Copies find the folder as it is
(organizer_file.py:32-46); tasks of a pool decide and write independently of each other (organizer_file.py:22), so that what a task finds may be any state
since the pool was started. -/
inductive Saves {V : Type} (s : Sys) (d : Nat) (pool : Bool) : List (World V) → List (Put V) → List (World V) → Prop where
  | done (h : List (World V)) : Saves s d pool h [] h
  | step (w : World V) (h : List (World V)) (x : Put V) (l : List (Put V)) (view : World V) (dir : Folder) (w' : World V) (h' : List (World V)) :
      view ∈ w :: (if pool then h else []) → (inside s x.file.1 = true → Shows view x.file.1 dir) → saveOne s d view w dir x = some w' →
      Saves s d pool (w' :: w :: h) l h' → Saves s d pool (w :: h) (x :: l) h'

/-- what unpack_code_file saves: organizer_file.py:80-103; `none` is an exception -/
noncomputable def codePuts {V : Type} (s : Sys) (i : Item V) : Option (List (Put V)) := match i.2.2 with
  | .elems _ => none
  | .bytes b => (utf8SigText b).bind (fun t => (V8.Code.unpack (universal t)).map (fun a => a.filterMap (fun p =>
      if p.1 = "root".toList then some ⟨(s.src ++ i.1, i.2.1), txt s p.2.data, sameText p.2.data⟩
      else if p.2.typ = .incr then none
      else some ⟨parse s.env p.1 (s.src ++ i.1), txt s p.2.data, sameText p.2.data⟩)))

/-- the copies: organizer_file.py:44-46, 53-78 -/
noncomputable def plainPuts {V : Type} (s : Sys) (l : List (Item V)) : List (Put V) :=
  (l.filter (fun i => !isCode i.2.1 && !isElem i.2.1)).map (fun i => ⟨(s.src ++ i.1, i.2.1), i.2.2, sameBytes i.2.2⟩)

/-- OrganizerFileCE.unpack at version `d`: organizer_file.py:13-28: `w'` is a state after a run that lays out the files `l`, listed in this order, from the
state `w`.  The files of elements get no version (organizer_form_elem.py:110-124). -/
def Unpacked {V : Type} (names : V → List Text) (s : Sys) (d : Nat) (w : World V) (l : List (Item V)) (w' : World V) : Prop :=
  ∃ code elem code' elem' v0 h0 v h, ((l.filter (fun i => isCode i.2.1)).mapM (codePuts s)).map List.flatten = some code ∧
    tasks (elemWrites names s) (l.filter (fun i => isElem i.2.1)) = some elem ∧ code'.Perm code ∧ elem'.Perm elem ∧
    Saves s d false [clear s w] (plainPuts s l) (v0 :: h0) ∧ Saves s d true [v0] code' (v :: h) ∧ w' = puts v elem'

/-! ### pack -/

/-- the state of the source folder during a build: what each of its folders shows -/
def Views {V : Type} (s : Sys) (w : World V) (view : Dir → Folder) : Prop := ∀ p, Shows w (s.src ++ p) (view p)

/-- list_descent_dir for all folders: organizer_file_ce.py:33-61, organizer_file.py:253-257: the names without versions (`none`: Python's None); names of
folders are followed, not built (line 262) -/
def Listing {V : Type} (s : Sys) (w : World V) (ls : List (Dir × Option Text)) : Prop :=
  ∀ p x, (p, x) ∈ ls ↔ (∃ m, w (s.src ++ p, m) ≠ none ∧ removeDescent m = x) ∧ ∀ n, x = some n → ∀ q m, w (s.src ++ p ++ n :: q, m) = none

/-- what is built of one name: organizer_file.py:260-283 (`os.path.join` with None fails), organizer_file_ce.py:26-31; for a module the version is
looked for a second time, with the name already found (organizer_code.py:81-83); the extension of the files of areas of elements is taken from the
name found (organizer_form_elem.py:156-158).  Simplification: an area of a module whose file lies in the source folder, or in one whose path begins with its
text, is looked for here without a version (organizer_code.py:103-106 looks for one); the theorems exclude such areas (`AreasOutside`). -/
noncomputable def packOne {V : Type} (names : V → List Text) (s : Sys) (w : World V) (view : Dir → Folder) (d fuel : Nat) (p : Dir) : Option Text → Option (Content V)
  | none => none
  | some n => (near (view p) n d).bind (fun m =>
    if isCode n then (near (view p) m d).bind (fun m' => (V8.Code.packFile s.env (texts w) fuel (s.src ++ p, m') none).map (txt s))
    else if isElem n then
      (V8.Areas.pack names (fun key => V8.OrgIndex.elemFile s (V8.OrgIndex.ext9 m) key (s.src ++ p)) (s.src ++ p, m) (forms w)).map .elems
    else w (s.src ++ p, m))

/-- OrganizerFileCE.pack at version `d`: organizer_file.py:133-152; the files are built in the order of `ls` (no two write to the same place) -/
noncomputable def pack {V : Type} (names : V → List Text) (s : Sys) (w : World V) (view : Dir → Folder) (d fuel : Nat) :
    List (Dir × Option Text) → Option (Dir × Text → Option (Content V))
  | [] => some (fun _ => none)
  | f :: r => match packOne names s w view d fuel f.1 f.2 with
    | none => none
    | some c => (pack names s w view d fuel r).map (fun g h => (g h).or (if f.2 = some h.2 ∧ f.1 = h.1 then some c else none))

end V8.Versions
