import Verif.Container
import Verif.Zlib
import Verif.Misc
import Verif.Encoding
import Verif.Store
/-
Model of the binary stages: from the file of a product to the folder of its files and back.
/repo/src/v8unpack/container_reader.py:11-118 (extract, decompress_and_extract, decompress_file_and_extract),
/repo/src/v8unpack/container.py:64-124 (Container.extract, extract_file), 197-212 (build),
/repo/src/v8unpack/container_writer.py:17-114 (build, calc_sha1, compress_and_build_simple_file, compress_and_build),
/repo/src/v8unpack/v8unpack.py:47-49, 110-111.

The parts: the container file (Container), the loops around zlib (Zlib), the table of digests (Misc.versionsList).
-/
namespace V8.Stage
open V8.Brace V8.Enc V8.Zlib

/-- what is found under a name of a folder on disk -/
inductive Tree where
  | file (b : Bytes)
  | dir (l : List (Text × Tree))

/-- a folder: the entries, in the order of the listing -/
abbrev Folder := List (Text × Tree)

/-- the entry of a name -/
def find {α : Type} (l : List (Text × α)) (n : Text) : Option α := (l.find? (fun p => decide (p.1 = n))).map (·.2)

/-- the first four bytes of a container: container.py:112, container_reader.py:98 -/
def mark : Bytes := [0xFF, 0xFF, 0xFF, 0x7F]

/-! ### extraction -/

/-- Container.read and Container.extract: container.py:48-95: the files of the container `b` in a new folder; `sub` is what extract_file makes of
the content of a file; `fuel` as in readContainer -/
def openContainer (fuel : Nat) (sub : Bytes → Except Err Tree) (b : Bytes) : Except Err Tree :=
  match readContainer fmt32 fuel b 0 with
  | .error e => .error e
  | .ok r => match mapExcept (fun (f : File) => match sub f.data with
      | .error e => .error e
      | .ok t => .ok (f.name, t)) r.files with
    | .error e => .error e
    | .ok l => .ok (.dir l)

/-- Container.extract_file with `recursive`: container.py:97-124: a file that begins like a container is taken apart as well; `n` limits the depth -/
def expand (fuel : Nat) : Nat → Bytes → Except Err Tree
  | 0, b => if b.take 4 = mark then .error .fuel else .ok (.file b)
  | n + 1, b => if b.take 4 = mark then openContainer fuel (expand fuel n) b else .ok (.file b)

/-- decompress_file_and_extract: container_reader.py:77-118 -/
def openStored (I : Inflater) (fuel n : Nat) (stored : Bytes) : Except Err Tree :=
  match decompressFile I stored with
  | none => .error .value
  | some b => if looksLikeContainer I stored then openContainer fuel (expand fuel n) b else .ok (.file b)

/-- decompress_and_extract for the files of one container: container_reader.py:61-74 -/
def openFiles (I : Inflater) (fuel n : Nat) (files : List File) : Except Err Folder :=
  mapExcept (fun (f : File) => match openStored I fuel n f.data with
    | .error e => .error e
    | .ok t => .ok (f.name, t)) files

/-- container_extract(in, stage0, False, False); decompress_and_extract(stage0, stage1): v8unpack.py:47-49: the folders `0`, `1`, ... of stage 1 -/
def unwrap (I : Inflater) (fuel steps n : Nat) (f : Bytes) : Except Err (List Folder) :=
  match extractLoop f fuel steps 0 with
  | .error e => .error e
  | .ok cs => mapExcept (openFiles I fuel n) cs

/-- the folder as the decoders see it -/
def view (l : Folder) (n : Text) : Option V8.Store.Node := (find l n).map (fun t => match t with
  | .file b => .file b
  | .dir d => .dir (fun m => (find d m).bind (fun t => match t with
    | .file b => some b
    | .dir _ => none)))

/-! ### build -/

/-- what the build takes from outside: the times of the files on disk (in units of 100 µs, by path), the compressor, the digest
`b64encode(sha1(·).digest())`, whether text mode writes CR LF, and what `deflate` would be (never used here: every container is built with
`nested=True`, container_writer.py:43, 106) -/
structure Disk where
  times : List Text → Nat × Nat
  D : Deflater
  digest : Bytes → Text
  win : Bool
  deflate : Bytes → Bytes

/-- an entry of a folder for Container.build: container.py:202-211 -/
def entryOf (d : Disk) (path : List Text) (p : Text × Tree) : Entry := ⟨p.1, match p.2 with
  | .file b => .file (d.times (path ++ [p.1])).1 (d.times (path ++ [p.1])).2 b
  | .dir _ => .dir⟩

/-- the stored form of an entry: compress_and_build, container_writer.py:102-113 -/
def storedOf (d : Disk) (p : Text × Tree) : Except Err (Text × Bytes) := match p.2 with
  | .file b => .ok (p.1, compressFile d.D b)
  | .dir l => match buildContainer fmt32 d.deflate ⟨[], 0⟩ (l.map (entryOf d [p.1])) true 0 with
    | .error e => .error e
    | .ok w => .ok (p.1, compressFile d.D w.bytes)

/-- `'configinfo'` after calc_sha1: container_writer.py:52-81: the file is opened for update in text mode, its placeholder replaced; what was longer
stays.  `none` is an exception. -/
noncomputable def stamped (d : Disk) (stored : List (Text × Bytes)) (b : Bytes) : Option Bytes :=
  (utf8Text b).map (fun t =>
    let u := universal t
    let new := utf8 (osWrite d.win (V8.Misc.replaceAll V8.Misc.placeholder (encRoot [V8.Misc.versionsList d.digest stored]) u.length u))
    new ++ b.drop new.length)

/-- calc_sha1 for a folder: container_writer.py:52-81, 114: the stored files afterwards -/
noncomputable def signed (d : Disk) (l : Folder) (stored : List (Text × Bytes)) : Except Err (List (Text × Bytes)) :=
  if stored.any (fun p => decide (p.1 = V8.Misc.configinfoName)) then
    match find l V8.Misc.configinfoName with
    | some (.file b) => match stamped d stored b with
      | none => .error .unicode
      | some b' => .ok (stored.map (fun p => if p.1 = V8.Misc.configinfoName then (p.1, compressFile d.D b') else p))
    | _ => .error .io
  else .ok stored

/-- compress_and_build for one container: container_writer.py:91-114 -/
noncomputable def stored (d : Disk) (l : Folder) : Except Err (List (Text × Bytes)) := match mapExcept (storedOf d) l with
  | .error e => .error e
  | .ok s => signed d l s

/-- the file in stage 0 as an entry of the outer container -/
def storedEntry (d : Disk) (p : Text × Bytes) : Entry := ⟨p.1, .file (d.times [p.1]).1 (d.times [p.1]).2 p.2⟩

/-- compress_and_build(stage1, stage0); container_build(stage0, out, True) for a product of one container: v8unpack.py:110-111 -/
noncomputable def wrap (d : Disk) (l : Folder) : Except Err Bytes := match stored d l with
  | .error e => .error e
  | .ok s => buildFile d.deflate [s.map (storedEntry d)] true

end V8.Stage
