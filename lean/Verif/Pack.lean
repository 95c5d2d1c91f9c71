import Verif.Index
/-
Model of the file side of building: /repo/src/v8unpack/organizer_file.py:133-296 (pack, _pack_index_elem, _pack_index, _pack,
_pack_file), without versions (OrganizerFile).
-/
namespace V8.Index
open V8.Str V8.Json V8.Descent

/-- where a file goes: folder and name -/
abbrev Dest := List Text × Text

/-- one copy into the destination; `deferred` for module and form-element files, which are queued and run in the pool
(organizer_file.py:165-181 and 270-277).  Simplification: the content is that of the source file; the inlining of include areas
by the queued task is not part of this model (it is in Verif/Code.lean). -/
structure Op where
  dest : Dest
  content : Text
  deferred : Bool
deriving DecidableEq

/-- what packing sees: the folder listings relative to the current directory (names with isfile), and the files below the
root of indexed files (`src_dir/..`) -/
structure Env where
  cwd : Text → Option (List (Text × Bool))
  root : Text → Option Text

/-- entry.endswith('.bsl') / entry.endswith('.elem.json'): organizer_file.py:164, 175, 270, 274 -/
def isQueued (entry : Text) : Bool := ends ".bsl".toList entry || ends ".elem.json".toList entry

/-- _pack_index_elem: organizer_file.py:154-198; `none`: the source does not exist (for queued files this is found when the
task runs; the build fails in both cases) -/
def packElem (env : Env) (path : List Text) (entry src : Text) : Option Op :=
  (env.root src).map (fun c => { dest := (path, entry), content := c, deferred := isQueued entry })

/-- truth of a JSON value (line 208); scalars: 0 and false -/
def truthy : J → Bool
  | .null => false
  | .str s => s ≠ []
  | .scalar s => s ≠ "0".toList && s ≠ "false".toList
  | .arr l => l ≠ []
  | .obj .nil => false
  | .obj (.cons _ _ _) => true

/-- the key of the table of include areas (line 206) -/
def areasKey : Text := "Области include".toList

/-- the files of a wildcard entry: organizer_file.py:210-224.  `k` is the key, `done` the entries before it. -/
def wildNames (k : Text) (done : List Text) (names : List (Text × Bool)) : List Text :=
  (names.filter (fun n => n.1 ∉ done && n.1 ∉ (split '-' k).tail && n.2)).map (·.1)

/-- _pack_index: organizer_file.py:200-243; `done` is completed_entry, `none` an error.  The missing folder of a wildcard entry
is passed over (`except FileNotFoundError: pass`). -/
def packIndex (env : Env) : List Text → D → List Text → Option (List Op)
  | _, .nil, _ => some []
  | path, .cons k v r, done =>
    if k = areasKey || !truthy v then packIndex env path r done
    else if starts ['*'] k then
      match v with
      | .str p => match env.cwd p with
        | none => packIndex env path r done
        | some names =>
          ((wildNames k done names).mapM (fun n => packElem env path n (pjoin p n))).bind (fun ops =>
            (packIndex env path r done).map (ops ++ ·))
      | _ => none
    else match v with
      | .obj d => (packIndex env (path ++ [k]) d []).bind (fun ops => (packIndex env path r done).map (ops ++ ·))
      | .str p => (packElem env path k p).bind (fun op => (packIndex env path r (done ++ [k])).map (op :: ·))
      | _ => none

/-- the own files of the source folder: folder, name, content -/
abbrev Own := List (Dest × Text)

/-- _pack: organizer_file.py:253-285 for all folders; a file is passed over when the destination already has it (line 267) -/
def packOwn (index : List Op) (own : Own) : List Op :=
  (own.filter (fun f => !(index.any (fun o => !o.deferred && o.dest = f.1)))).map (fun f =>
    { dest := f.1, content := f.2, deferred := isQueued f.1.2 })

/-- all copies of a build: organizer_file.py:137-146 -/
def packOps (env : Env) (index : D) (own : Own) : Option (List Op) :=
  (packIndex env [] index []).map (fun ops => ops ++ packOwn ops own)

/-- content of a destination file after a sequence of copies -/
def finalContent (ops : List Op) (d : Dest) : Option Text := ((ops.filter (fun o => o.dest = d)).getLast?).map (·.content)

/-- the destination after a build whose queued copies are done in the order `sched` -/
def packed (ops sched : List Op) (d : Dest) : Option Text := finalContent (ops.filter (fun o => !o.deferred) ++ sched) d

end V8.Index
