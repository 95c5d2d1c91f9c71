import Verif.PathText
/-
Model of `extract` and `build` (v8unpack.py:20-118) as programs that change a file system.  The stages they call are
parameters here (each of them has its own model elsewhere); what is modelled is which folders are emptied when, in which
order the stages run and what happens when one of them raises an exception.
-/
namespace V8.Top
open V8.Str

/-- a place in the file system: the names of the folders from the root (Verif/PathText.lean `place`) -/
abbrev Place := List Text

/-- the files of a file system; folders are not recorded, an empty folder is nothing -/
abbrev Fs := Place → Option Bytes

/-- `p` is the place `d` or lies below it -/
def Under (d p : Place) : Prop := d <+: p

instance (d p : Place) : Decidable (Under d p) := inferInstanceAs (Decidable (d <+: p))

/-- shutil.rmtree(path, ignore_errors=True): helper.py:158.  A file is not removed, rmtree works on folders only.  Assumption: the
rights suffice. -/
def rmtree (d : Place) (fs : Fs) : Fs := fun p => if d <+: p ∧ p ≠ d then none else fs p

/-- os.makedirs(path, exist_ok=True) fails when the folder or a folder above it is a file: helper.py:159, 402-409 -/
def canMake (d : Place) (fs : Fs) : Bool := (List.range (d.length + 1)).all (fun k => (fs (d.take k)).isNone)

/-- what a call leaves: the file system and whether it returned normally (`false`: an exception) -/
abbrev Step := Fs → Fs × Bool

/-- clear_dir: helper.py:157-159 -/
def clearDir (d : Place) : Step := fun fs => (rmtree d fs, canMake d (rmtree d fs))

/-- one statement after the other; an exception stops -/
def andThen (a b : Step) : Step := fun fs => match a fs with
  | (fs, true) => b fs
  | (fs, false) => (fs, false)

/-- `if c: s` -/
def when (c : Bool) (s : Step) : Step := fun fs => if c then s fs else (fs, true)

/-- the arguments: v8unpack.py:20, 72.  `fresh` is what tempfile.mkdtemp() would return. -/
structure Args where
  product : Place
  src : Place
  temp : Option Place
  fresh : Place
  descent : Option Nat

/-- v8unpack.py:38-41, 87-90 -/
def Args.tempDir (a : Args) : Place := a.temp.getD a.fresh

/-- check_index: helper.py:484-501, v8unpack.py:28-30, 81-83.  `none`: an exception; `some none`: no index was given;
`some (some n)`: an index with `n` entries. -/
abbrev CheckIndex := Fs → Option (Option Nat)

/-- the four stages of `extract`: v8unpack.py:49-60 -/
structure ExtractStages where
  container : Place → Place → Step
  decompress : Place → Place → Step
  decode : Place → Place → Step
  unpack : Place → Place → Step

/-- the four stages of `build`: v8unpack.py:101-110.  The last one, container_writer.build, reads its folder first (`none`: it
raised an exception before the product was opened: container_writer.py:32-38), opens the product for writing, which empties
it, and leaves it with some content, complete or not (container_writer.py:40-47). -/
structure BuildStages where
  pack : Place → Place → Step
  encode : Place → Place → Step
  compress : Place → Place → Step
  contents : Place → Fs → Option (Bytes × Bool)

/-- the names of the folders of the stages: v8unpack.py:43-46, 92-95 -/
def stage (t : Place) (name : Text) : Place := t ++ [name]

/-- shutil.rmtree(temp_dir, ignore_errors=True) at the end, when the folder was made here: v8unpack.py:66-67, 113-114 -/
def cleanUp (a : Args) : Step := when a.temp.isNone (fun fs => (rmtree a.tempDir fs, true))

/-- the body of `extract` behind the index: v8unpack.py:32-67 -/
def extractBody (a : Args) (st : ExtractStages) : Step :=
  let t := a.tempDir
  let d0 := stage t "decode_stage_0".toList
  let d1 := stage t "decode_stage_1".toList
  let d3 := stage t "decode_stage_3".toList
  andThen (when a.descent.isNone (clearDir a.src)) <|
  andThen (clearDir t) <|
  andThen (st.container a.product d0) <|
  andThen (st.decompress d0 d1) <|
  andThen (st.decode d1 d3) <|
  andThen (st.unpack d3 a.src) <|
  cleanUp a

/-- an index without entries ends the work without an error: v8unpack.py:29-30, 82-83 -/
def withIndex (ci : CheckIndex) (body : Step) : Step := fun fs => match ci fs with
  | none => (fs, false)
  | some (some 0) => (fs, true)
  | some _ => body fs

/-- extract: v8unpack.py:20-69 -/
def extract (a : Args) (ci : CheckIndex) (st : ExtractStages) : Step := withIndex ci (extractBody a st)

/-- open(filename, 'wb') with makedirs of its folder: container_writer.py:30, 40.  Assumption: the place is no folder. -/
def put (p : Place) (b : Bytes) (fs : Fs) : Fs := fun q => if q = p then some b else fs q

/-- container_writer.build: container_writer.py:15-48 -/
def writeProduct (st : BuildStages) (d : Place) (product : Place) : Step := fun fs =>
  if canMake product.dropLast fs then
    match st.contents d fs with
    | none => (fs, false)
    | some (b, ok) => (put product b fs, ok)
  else (fs, false)

/-- the body of `build` behind the index: v8unpack.py:85-114 -/
def buildBody (a : Args) (st : BuildStages) : Step :=
  let t := a.tempDir
  let d0 := stage t "encode_stage_0".toList
  let d1 := stage t "encode_stage_1".toList
  let d3 := stage t "encode_stage_3".toList
  andThen (clearDir t) <|
  andThen (st.pack a.src d3) <|
  andThen (st.encode d3 d1) <|
  andThen (st.compress d1 d0) <|
  andThen (writeProduct st d0 a.product) <|
  cleanUp a

/-- build: v8unpack.py:72-118 -/
def build (a : Args) (ci : CheckIndex) (st : BuildStages) : Step := withIndex ci (buildBody a st)

/-! ### Specification -/

/-- the call changes nothing outside the places of `R` -/
def Writes (R : Place → Prop) (s : Step) : Prop := ∀ fs p, ¬ R p → (s fs).1 p = fs p

/-- two file systems have the same files at the places of `R` -/
def Same (R : Place → Prop) (fs gs : Fs) : Prop := ∀ p, R p → fs p = gs p

/-- what the call leaves in `D`, and whether it returns, depends only on the files of `R` -/
def Reads (R D : Place → Prop) (s : Step) : Prop :=
  ∀ fs gs, Same R fs gs → Same D (s fs).1 (s gs).1 ∧ (s fs).2 = (s gs).2

/-- stages that keep to their folders (what C72 says of entries with single names).  `unpack` may write to the common
folders of the index, too: `R`. -/
structure ExtractStages.Ok (st : ExtractStages) (R : Place → Prop) : Prop where
  container : ∀ i d, Writes (Under d) (st.container i d)
  decompress : ∀ s d, Writes (Under d) (st.decompress s d)
  decode : ∀ s d, Writes (Under d) (st.decode s d)
  unpack : ∀ s d, Writes (fun p => Under d p ∨ R p) (st.unpack s d)
  /-- open(filename, 'rb') of a missing product raises an exception: container_reader.py:27 -/
  missing : ∀ i d fs, fs i = none → (st.container i d fs).2 = false

/-- stages that keep to their folders -/
structure BuildStages.Ok (st : BuildStages) : Prop where
  pack : ∀ s d, Writes (Under d) (st.pack s d)
  encode : ∀ s d, Writes (Under d) (st.encode s d)
  compress : ∀ s d, Writes (Under d) (st.compress s d)

/-- every stage looks at its input folder only, its own folder being empty; `C`: the files beside the sources that pack reads
(the common folders of the index) -/
structure BuildStages.Det (st : BuildStages) (C : Place → Prop) : Prop where
  pack : ∀ s d, Reads (fun p => Under s p ∨ Under d p ∨ C p) (Under d) (st.pack s d)
  encode : ∀ s d, Reads (fun p => Under s p ∨ Under d p) (Under d) (st.encode s d)
  compress : ∀ s d, Reads (fun p => Under s p ∨ Under d p) (Under d) (st.compress s d)
  contents : ∀ d fs gs, Same (Under d) fs gs → st.contents d fs = st.contents d gs

/-- the same for `extract` -/
structure ExtractStages.Det (st : ExtractStages) : Prop where
  container : ∀ i d, Reads (fun p => p = i ∨ Under d p) (Under d) (st.container i d)
  decompress : ∀ s d, Reads (fun p => Under s p ∨ Under d p) (Under d) (st.decompress s d)
  decode : ∀ s d, Reads (fun p => Under s p ∨ Under d p) (Under d) (st.decode s d)
  unpack : ∀ s d, Reads (fun p => Under s p ∨ Under d p) (Under d) (st.unpack s d)

end V8.Top
