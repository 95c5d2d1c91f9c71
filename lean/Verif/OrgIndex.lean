import Verif.Org
import Verif.Pack
import Verif.PathText
/-
Model of the organizer for a whole folder with an index: /repo/src/v8unpack/organizer_file.py:13-109 (unpack, _unpack, unpack_file,
unpack_code_file), 133-296 (pack, _pack_index_elem, _pack_index, _pack, _pack_file), /repo/src/v8unpack/organizer_code.py:20-136,
/repo/src/v8unpack/organizer_form_elem.py:14-21, 110-172, /repo/src/v8unpack/index.py:54-85 (get_dest_path).

The walk through the index is `packIndex` (Verif/Pack.lean), the lookup `getDestPath` (Verif/Index.lean); worlds, files and areas are those of
Verif/Org.lean.
-/
namespace V8.OrgIndex
open V8.Str V8.Enc V8.Code V8.Brace V8.Org V8.Json V8.Index

/-- `index.get('Области include')` as the table of areas: organizer_file.py:93, 142.  Simplification: an entry that is no text, or a table that is no
dictionary, counts as absent (the code fails on them) -/
def table (idx : D) : Text → Option Text := fun k => match idx.get areasKey with
  | some (.obj d) => match d.get k with
    | some (.str s) => some s
    | _ => none
  | _ => none

/-- the parameters of a run: source folder (absolute, organizer_file.py:20, 141), index, line ends of text mode -/
def sysOf (src : Dir) (idx : D) (win : Bool) : Sys := ⟨src, table idx, win, false⟩

/-- where a file of the product is written: get_dest_path, then `os.path.abspath(os.path.join(dest_dir, path))`: organizer_file.py:57-58, 90-94,
organizer_form_elem.py:114-122; `deep`: a version is given -/
def home (src : Dir) (idx : D) (p : Dir) (n : Text) (deep : Bool := false) : Option Org.File :=
  (getDestPath (some idx) (join '/' p) n deep).map (fun r => (V8.Path.place (pjoin (V8.Path.pathOf src) r.1), r.2))

/-! ### unpack -/

/-- what unpack_code_file writes: organizer_file.py:80-103; `none` is an exception -/
noncomputable def codeWrites {V : Type} (s : Sys) (idx : D) (i : Item V) : Option (List (Write V)) := match i.2.2 with
  | .elems _ => none
  | .bytes b => (utf8SigText b).bind (fun t => (V8.Code.unpack (universal t)).bind (fun a =>
      (home s.src idx i.1 i.2.1 s.deep).map (fun h => a.filterMap (fun p =>
        if p.1 = "root".toList then some (h, txt s p.2.data)
        else if p.2.typ = .incr then none
        else some (parse s.env p.1 (s.src ++ i.1), txt s p.2.data)))))

/-- the file of an area of elements; `ext` is `file_name[-9::]`: organizer_code.py:119-136, organizer_form_elem.py:117-121, 156-158 -/
def elemFile (s : Sys) (ext key : Text) (cur : Dir) : Org.File :=
  ((parse s.env key cur).1, ((split '_' (s.env.name key)).getLast?.getD []) ++ '.' :: ext)

/-- `file_name[-9::]` -/
def ext9 (n : Text) : Text := n.drop (n.length - 9)

/-- what OrganizerFormElem.unpack writes: organizer_form_elem.py:14-21, 110-128 -/
def elemWrites {V : Type} (names : V → List Text) (s : Sys) (idx : D) (i : Item V) : Option (List (Write V)) := match i.2.2 with
  | .bytes _ => none
  | .elems e => (V8.Areas.areasOut names e.tree [] e.data).bind (fun q => (home s.src idx i.1 i.2.1 s.deep).map (fun h =>
      (V8.Areas.assign (q.2.2.foldl (fun d a => V8.Areas.assign d a.1 a.2) []) V8.Areas.rootWord ⟨q.1, q.2.1, e.extra⟩).map (fun a =>
        (if a.1 = V8.Areas.rootWord then h else elemFile s (ext9 i.2.1) a.1 (s.src ++ i.1), .elems a.2))))

/-- the copy of another file: organizer_file.py:53-76 -/
def plainWrites {V : Type} (s : Sys) (idx : D) (i : Item V) : Option (List (Write V)) := (home s.src idx i.1 i.2.1 s.deep).map (fun h => [(h, i.2.2)])

/-- OrganizerFile.unpack: organizer_file.py:13-28.  `w'` is the world after a run that lays out the files `l`, the folder being listed in the order of `l`.
The writes of the module tasks may come in any order (they run in a pool), then those of the tasks for elements. -/
def Unpacked {V : Type} (names : V → List Text) (s : Sys) (idx : D) (w : World V) (l : List (Item V)) (w' : World V) : Prop :=
  ∃ plain code elem code' elem', tasks (plainWrites s idx) (l.filter (fun i => !isCode i.2.1 && !isElem i.2.1)) = some plain ∧
    tasks (codeWrites s idx) (l.filter (fun i => isCode i.2.1)) = some code ∧
    tasks (elemWrites names s idx) (l.filter (fun i => isElem i.2.1)) = some elem ∧ code'.Perm code ∧ elem'.Perm elem ∧
    w' = puts (clear s w) (plain ++ code' ++ elem')

/-! ### pack -/

/-- a file to be built: where it goes in the folder that is built, and which file of the sources it comes from -/
structure Job where
  dest : Dir × Text
  source : Org.File
deriving DecidableEq

/-- the file an index entry stands for: organizer_file.py:158-162 with organizer_code.py:81 and organizer_form_elem.py:133 for modules and elements,
organizer_file.py:183-194, 287-290 for the other files, whose path is put together and taken apart again; `deep`: a version is given -/
def entryFile (src : Dir) (entry e : Text) (deep : Bool := false) : Org.File :=
  if isQueued entry then (V8.Path.place (pjoin (V8.Path.pathOf src) (upFrom deep (dirname e))), basename e)
  else let full := pjoin (V8.Path.pathOf src) (upFrom deep e); (V8.Path.place (dirname full), basename full)

/-- the jobs of the index: _pack_index, organizer_file.py:200-243; `cwd` lists the folders of `*` entries -/
def indexJobs (cwd : Text → Option (List (Text × Bool))) (src : Dir) (idx : D) (deep : Bool := false) : Option (List Job) :=
  (packIndex ⟨cwd, some⟩ [] idx []).map (fun ops => ops.map (fun o => ⟨o.dest, entryFile src o.dest.2 o.content deep⟩))

/-- the files of the source folder: _pack, organizer_file.py:253-285; a file is passed over if the index has already copied one to its place (line 267;
modules and elements are not there yet at this point) -/
def ownJobs (src : Dir) (ix : List Job) (ls : List (Dir × Text)) : List Job :=
  (ls.filter (fun f => !(ix.any (fun j => !isQueued j.dest.2 && j.dest = f)))).map (fun f => ⟨f, (src ++ f.1, f.2)⟩)

/-- what a job writes: organizer_code.py:69-74, organizer_form_elem.py:130-142, organizer_file.py:287-296; the kind is that of the name in the product -/
noncomputable def runJob {V : Type} (names : V → List Text) (s : Sys) (w : World V) (fuel : Nat) (j : Job) : Option (Content V) :=
  if isCode j.dest.2 then (V8.Code.packFile s.env (texts w) fuel j.source none).map (txt s)
  else if isElem j.dest.2 then
    (V8.Areas.pack names (fun key => elemFile s (ext9 j.source.2) key j.source.1) j.source (forms w)).map .elems
  else w j.source

/-- the jobs of one kind, done: what each of them writes; `none` if one fails -/
noncomputable def runJobs {V : Type} (names : V → List Text) (s : Sys) (w : World V) (fuel : Nat) (l : List Job) : Option (List ((Dir × Text) × Content V)) :=
  l.mapM (fun j => (runJob names s w fuel j).map (fun c => (j.dest, c)))

/-- a folder after writing files into it one after the other -/
def folder {V : Type} (l : List ((Dir × Text) × Content V)) : Dir × Text → Option (Content V) := fun f => ((l.filter (fun x => x.1 = f)).getLast?).map (·.2)

/-- OrganizerFile.pack: organizer_file.py:133-152: `d` is a folder that may be built from the world `w`, whose source folder is listed as `ls`.  Copies are
made at once; the modules are written in any order, then the elements in any order. -/
def Packed {V : Type} (names : V → List Text) (cwd : Text → Option (List (Text × Bool))) (s : Sys) (idx : D) (w : World V) (ls : List (Dir × Text)) (fuel : Nat)
    (d : Dir × Text → Option (Content V)) : Prop :=
  ∃ ix plain code elem code' elem', indexJobs cwd s.src idx = some ix ∧
    runJobs names s w fuel ((ix ++ ownJobs s.src ix ls).filter (fun j => !isCode j.dest.2 && !isElem j.dest.2)) = some plain ∧
    runJobs names s w fuel ((ix ++ ownJobs s.src ix ls).filter (fun j => isCode j.dest.2)) = some code ∧
    runJobs names s w fuel ((ix ++ ownJobs s.src ix ls).filter (fun j => isElem j.dest.2)) = some elem ∧ code'.Perm code ∧ elem'.Perm elem ∧
    d = folder (plain ++ code' ++ elem')

end V8.OrgIndex
