import Verif.Versions
/-
Model of the organizer for a whole folder with versions (the option `descent`) and an index, the documented way to develop an extension for several versions
of a configuration (/repo/docs/usage.md:440-507): /repo/src/v8unpack/organizer_file_ce.py:7-61 (OrganizerFileCE), /repo/src/v8unpack/organizer_file.py:13-109,
133-296, /repo/src/v8unpack/organizer_code.py:69-117, /repo/src/v8unpack/organizer_form_elem.py:14-21, 110-142, /repo/src/v8unpack/index.py:54-85.

Files that the index moves out of the source folder have no version; the entries are seen from two folders above the sources (index.py:66-70,
organizer_file.py:158-162).  POSIX paths: the tests for `\src\` (organizer_file.py:63, 95, 165, 189, organizer_code.py:82, 103) never hold.
-/
namespace V8.VersIndex
open V8.Str V8.Enc V8.Code V8.Brace V8.Org V8.Descent V8.Json V8.Index
open V8.Versions (Put Saves Views Listing sameBytes sameText packOne)

/-! ### unpack -/

/-- what unpack_code_file saves: organizer_file.py:80-103; `none` is an exception -/
noncomputable def codePuts {V : Type} (s : Sys) (idx : D) (i : Item V) : Option (List (Put V)) := match i.2.2 with
  | .elems _ => none
  | .bytes b => (utf8SigText b).bind (fun t => (V8.Code.unpack (universal t)).bind (fun a =>
      (V8.OrgIndex.home s.src idx i.1 i.2.1 s.deep).map (fun h => a.filterMap (fun p =>
        if p.1 = "root".toList then some ⟨h, txt s p.2.data, sameText p.2.data⟩
        else if p.2.typ = .incr then none
        else some ⟨parse s.env p.1 (s.src ++ i.1), txt s p.2.data, sameText p.2.data⟩))))

/-- the copies: organizer_file.py:44-46, 53-78 -/
noncomputable def plainPut {V : Type} (s : Sys) (idx : D) (i : Item V) : Option (Put V) :=
  (V8.OrgIndex.home s.src idx i.1 i.2.1 s.deep).map (fun h => ⟨h, i.2.2, sameBytes i.2.2⟩)

/-- OrganizerFileCE.unpack at version `d` with an index: organizer_file.py:13-28: `w'` is a state after a run that lays out the files `l`, listed in this
order, from the state `w`.  The files of elements get no version (organizer_form_elem.py:110-124). -/
def Unpacked {V : Type} (names : V → List Text) (s : Sys) (idx : D) (d : Nat) (w : World V) (l : List (Item V)) (w' : World V) : Prop :=
  ∃ plain code elem code' elem' v0 h0 v h,
    (l.filter (fun i => !isCode i.2.1 && !isElem i.2.1)).mapM (plainPut s idx) = some plain ∧
    ((l.filter (fun i => isCode i.2.1)).mapM (codePuts s idx)).map List.flatten = some code ∧
    tasks (V8.OrgIndex.elemWrites names s idx) (l.filter (fun i => isElem i.2.1)) = some elem ∧ code'.Perm code ∧ elem'.Perm elem ∧
    Saves s d false [clear s w] plain (v0 :: h0) ∧ Saves s d true [v0] code' (v :: h) ∧ w' = puts v elem'

/-! ### pack -/

/-- what is built of one name of the source folder: organizer_file.py:253-285: a file is passed over if the index has already copied one to its place
(line 267; modules and elements are not there yet at this point), after the version was looked for (line 265) -/
noncomputable def ownWrites {V : Type} (names : V → List Text) (s : Sys) (w : World V) (view : Dir → Folder) (d fuel : Nat) (ix : List V8.OrgIndex.Job)
    (f : Dir × Option Text) : Option (List ((Dir × Text) × Content V)) := match f.2 with
  | none => none
  | some n => if ix.any (fun j => !isQueued j.dest.2 && j.dest = (f.1, n)) then (near (view f.1) n d).map (fun _ => [])
    else (packOne names s w view d fuel f.1 (some n)).map (fun c => [((f.1, n), c)])

/-- the kind of a name of the source folder, by its end: organizer_file.py:270-283 (`none`: Python's None, for which the build fails before) -/
def kindOf (test : Text → Bool) (f : Dir × Option Text) : Bool := match f.2 with
  | none => false
  | some n => test n

/-- the files of one kind that come from the source folder -/
noncomputable def ownAll {V : Type} (names : V → List Text) (s : Sys) (w : World V) (view : Dir → Folder) (d fuel : Nat) (ix : List V8.OrgIndex.Job)
    (l : List (Dir × Option Text)) : Option (List ((Dir × Text) × Content V)) := (l.mapM (ownWrites names s w view d fuel ix)).map List.flatten

/-- OrganizerFileCE.pack at version `d` with an index: organizer_file.py:133-152: `b` is a folder that may be built from the world `w`, whose source folder
shows the names `ls`.  The files the index names are taken as they are (organizer_file.py:165-195: no version is looked for).  Copies are made at once; the
modules are written in any order, then the elements in any order. -/
def Packed {V : Type} (names : V → List Text) (cwd : Text → Option (List (Text × Bool))) (s : Sys) (idx : D) (w : World V) (view : Dir → Folder)
    (ls : List (Dir × Option Text)) (d fuel : Nat) (b : Dir × Text → Option (Content V)) : Prop :=
  ∃ ix plainI plain codeI code elemI elem code' elem', V8.OrgIndex.indexJobs cwd s.src idx s.deep = some ix ∧ (∀ f ∈ ls, f.2 ≠ none) ∧
    V8.OrgIndex.runJobs names s w fuel (ix.filter (fun j => !isCode j.dest.2 && !isElem j.dest.2)) = some plainI ∧
    ownAll names s w view d fuel ix (ls.filter (kindOf (fun n => !isCode n && !isElem n))) = some plain ∧
    V8.OrgIndex.runJobs names s w fuel (ix.filter (fun j => isCode j.dest.2)) = some codeI ∧
    ownAll names s w view d fuel ix (ls.filter (kindOf isCode)) = some code ∧
    V8.OrgIndex.runJobs names s w fuel (ix.filter (fun j => isElem j.dest.2)) = some elemI ∧
    ownAll names s w view d fuel ix (ls.filter (kindOf isElem)) = some elem ∧
    code'.Perm (codeI ++ code) ∧ elem'.Perm (elemI ++ elem) ∧ b = V8.OrgIndex.folder (plainI ++ plain ++ code' ++ elem')

end V8.VersIndex
