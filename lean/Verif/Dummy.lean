import Verif.Stage
import Verif.Misc
import Verif.Decimal
/-
Products of two containers: the archive `dummy.zip` in the sources.  Models decoder.py:175-207 and container_writer.py:17-49, 91-114 for any number of
containers.  A zip archive is taken as the folder it was made of (shutil.make_archive and unpack_archive are not modelled).
-/
namespace V8.Stage
open V8.Brace V8.Enc V8.Zlib V8.Dec

/-- the folders of stage 1 under their names `0`, `1`, ...: container_reader.py:61-74 -/
def named : Nat → List Folder → List (Text × Folder)
  | _, [] => []
  | k, l :: r => (showNat k, l) :: named (k + 1) r

/-- decode: decoder.py:196-207: the folder that is decoded and what is put into `dummy.zip`.  `listing` is os.listdir of stage 1; `none` is an exception. -/
def chosen (fs : List Folder) (listing : List Text) : Option (Folder × Option Folder) :=
  match V8.Misc.chooseContainer listing with
  | none => none
  | some (c, two) => match find (named 0 fs) c with
    | none => none
    | some l => if two then (find (named 0 fs) ['0']).map (fun z => (l, some z)) else some (l, none)

/-- encode: decoder.py:175-193: the folders of stage 1 that a build makes: `0`, or `0` from `dummy.zip` and `1` -/
def folders (dummy : Option Folder) (l : Folder) : List Folder := match dummy with
  | none => [l]
  | some z => [z, l]

/-- the disk as container number `k` is built from it: each container has its own folder -/
def diskOf (d : Disk) (k : Nat) : Disk := { d with times := fun p => d.times (showNat k :: p) }

/-- the entries of the containers, from number `k`: container_writer.py:91-114, container.py:202-211 -/
noncomputable def storedAll (d : Disk) : Nat → List Folder → Except Err (List (List Entry))
  | _, [] => .ok []
  | k, l :: r => match stored (diskOf d k) l with
    | .error e => .error e
    | .ok s => match storedAll d (k + 1) r with
      | .error e => .error e
      | .ok ss => .ok (s.map (storedEntry (diskOf d k)) :: ss)

/-- compress_and_build(stage1, stage0); container_build(stage0, out, True): v8unpack.py:110-111, container_writer.py:17-49, 91-114 -/
noncomputable def wrapAll (d : Disk) (ls : List Folder) : Except Err Bytes := match storedAll d 0 ls with
  | .error e => .error e
  | .ok es => buildFile d.deflate es true

end V8.Stage
