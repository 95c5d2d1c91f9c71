import Verif.Top
import Verif.Misc
/-
Model of the command line: /repo/src/v8unpack/v8unpack.py:186-302 (main) and of the batch functions it calls (v8unpack.py:121-183), on top of the model
of `extract` and `build` (Verif/Top.lean).  Parsing of the words of the command line by argparse is not modelled: the model starts from the parsed arguments
(of -E, -B, -I, -EA, -BA, -IA exactly one is given, argparse ends the program otherwise).
-/
namespace V8.Cli
open V8.Str V8.Top

/-- the command: v8unpack.py:191-203, 238-249 -/
inductive Cmd where
  | E (file src : Text)
  | B (src file : Text)
  | I (src : Text)
  | EA (file : Text)
  | BA (file : Text)
  | IA (file : Text)

/-- the other arguments: v8unpack.py:204-236 -/
structure Flags where
  temp : Option Text := none
  pre : Option Text := none
  core : Option Text := none
  index : Option Text := none
  version : Option Text := none
  processes : Option Int := none
  descent : Option Int := none
  auto : Bool := false

/-- the dictionary `options` of `extract` and `build`; `none`: the key is absent -/
structure Opts where
  pre : Option Text := none
  auto : Bool := false
  descent : Option Int := none
  version : Option Text := none
  product : Option Text := none
deriving DecidableEq

/-- `if value: options[elem] = value`: v8unpack.py:257-262 -/
def kept {α : Type} (falsy : α → Bool) (v : Option α) : Option α := v.bind (fun x => if falsy x then none else some x)

/-- the options: v8unpack.py:257-262 -/
def options (f : Flags) : Opts :=
  ⟨kept (fun x => decide (x = [])) f.pre, f.auto, kept (fun x => decide (x = 0)) f.descent, kept (fun x => decide (x = [])) f.version, none⟩

/-- the parts of the program that have models of their own: the folder `tempfile.mkdtemp()` makes, check_index for a path, the stages for an index and options,
update_index for a folder, an index and a common folder, load_json for the file of products (`none`: an exception) -/
structure Parts where
  fresh : Place
  check : Option Text → CheckIndex
  exStages : Option Text → Opts → ExtractStages
  buStages : Option Text → Opts → BuildStages
  update : Text → Text → Option Text → Step
  load : Text → Fs → Option (List (Text × V8.Misc.Params Opts))

/-- os.path.abspath -/
def absolute (cwd : Place) (p : Text) : Place := V8.Path.place (V8.Path.join (V8.Path.pathOf cwd) p)

/-- the function `extract` of the package: v8unpack.py:20-69.  The number of processes has no effect on the result (C45); it is not recorded. -/
def apiExtract (q : Parts) (cwd : Place) (file src : Place) (index temp : Option Text) (o : Opts) : Step :=
  Top.extract ⟨file, src, temp.map (absolute cwd), q.fresh, o.descent.map Int.toNat⟩ (q.check index) (q.exStages index o)

/-- the function `build` of the package: v8unpack.py:72-118 -/
def apiBuild (q : Parts) (cwd : Place) (src file : Place) (index temp : Option Text) (o : Opts) : Step :=
  Top.build ⟨file, src, temp.map (absolute cwd), q.fresh, o.descent.map Int.toNat⟩ (q.check index) (q.buStages index o)

/-- update_index with a path that may be None (`open(None)` raises TypeError): index.py:28-55 -/
def apiUpdate (q : Parts) (src : Text) (index core : Option Text) : Step := match index with
  | none => fun fs => (fs, false)
  | some i => q.update src i core

/-- the loop of the batch functions: v8unpack.py:127-139, 148-158, 167-178; `one` is the call for a product (`none`: KeyError for `src` or `bin`) -/
def batch (one : Text → V8.Misc.Params Opts → Option Step) : List (Text × V8.Misc.Params Opts) → Step
  | [] => fun fs => (fs, true)
  | (name, p) :: r => if p.disable then batch one r else match one name p with
    | none => fun fs => (fs, false)
    | some s => andThen s (batch one r)

/-- the batch functions: v8unpack.py:121-183; `code` is the product code -/
def batchAll (q : Parts) (file : Text) (code : Option Text) (one : Text → V8.Misc.Params Opts → Option Step) : Step := fun fs =>
  match (q.load file fs).bind (fun l => V8.Misc.selectProducts l code) with
  | none => (fs, false)
  | some l => batch one l fs

/-- the call of build_all for a product: v8unpack.py:131-138 -/
def buildOne (q : Parts) (cwd : Place) (name : Text) (p : V8.Misc.Params Opts) : Option Step :=
  p.src.bind (fun s => p.bin.map (fun b => apiBuild q cwd (absolute cwd s) (absolute cwd b) p.index p.temp { p.options.getD {} with product := some name }))

/-- the call of extract_all for a product: v8unpack.py:152-157 -/
def extractOne (q : Parts) (cwd : Place) (_name : Text) (p : V8.Misc.Params Opts) : Option Step :=
  p.bin.bind (fun b => p.src.map (fun s => apiExtract q cwd (absolute cwd b) (absolute cwd s) p.index p.temp (p.options.getD {})))

/-- the call of update_index_all for a product: v8unpack.py:174-178 -/
def updateOne (q : Parts) (core : Option Text) (_name : Text) (p : V8.Misc.Params Opts) : Option Step :=
  p.src.map (fun s => apiUpdate q s p.index core)

/-- the work of main: v8unpack.py:264-291 -/
def run (q : Parts) (cwd : Place) (c : Cmd) (f : Flags) : Step := match c with
  | .E file src => apiExtract q cwd (absolute cwd file) (absolute cwd src) f.index f.temp (options f)
  | .B src file => apiBuild q cwd (absolute cwd src) (absolute cwd file) f.index f.temp (options f)
  | .BA file => batchAll q file f.index (buildOne q cwd)
  | .EA file => batchAll q file f.index (extractOne q cwd)
  | .I src => apiUpdate q src f.index f.core
  | .IA file => batchAll q file f.index (updateOne q f.core)

/-- `sys.exit(main())`: v8unpack.py:293-301: None is 0; after an exception the message is printed and main returns 1 -/
def main (q : Parts) (cwd : Place) (c : Cmd) (f : Flags) : Fs → Fs × Nat := fun fs =>
  let r := run q cwd c f fs
  (r.1, if r.2 then 0 else 1)

end V8.Cli
