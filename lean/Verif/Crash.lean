import Verif.Container
/-
Model of a build that is interrupted: container.py (Container.build) and container_doc.py (Document.write_block), with a
record of every `write` call on the product file.  The functions are the writers of Verif/Container.lean once more, on a
file object that also keeps the record (`LFile`) and with the state of the file kept when an exception is raised;
`C71_record` (Verif/Props/Crash.lean) proves that they write what the functions of Verif/Container.lean write.
-/
namespace V8.Crash

/-- the product file (open(filename, 'w+b'), container_writer.py:40) and the write calls made on it so far: the position
and the bytes of each, in order -/
structure LFile where
  w : WFile
  log : List (Nat × Bytes)

/-- file.write -/
def LFile.write (l : LFile) (b : Bytes) : LFile := ⟨l.w.write b, l.log ++ [(l.w.pos, b)]⟩
/-- file.seek -/
def LFile.seek (l : LFile) (o : Nat) : LFile := ⟨l.w.seek o, l.log⟩

/-- Document.write_block_data: container_doc.py:180-186 -/
def copyL (n : Nat) (hn : 0 < n) (dest : LFile) (src : Bytes) : LFile :=
  if _h : src = [] then dest
  else copyL n hn (dest.write (src.take n)) (src.drop n)
termination_by src.length
decreasing_by
  have : 0 < src.length := List.length_pos_iff.mpr _h
  simp only [List.length_drop]; omega

/-- `self.container.file.seek(offset)` or the end of the file: container_doc.py:145-148 -/
def placeL (l : LFile) (offset : Option Nat) : LFile :=
  match offset with
  | some o => l.seek o
  | none => l

/-- the offset that write_block returns: container_doc.py:145-148, 163 -/
def offsetL (l : LFile) (offset : Option Nat) : Nat :=
  match offset with
  | some o => o
  | none => l.w.bytes.length

/-- Document.write_block: container_doc.py:136-163 -/
def writeBlockL (fm : Fmt) (l : LFile) (data : Bytes) (docSize minBlock : Nat)
    (offset : Option Nat) (next : Option Nat) : LFile × Nat :=
  let blk := max minBlock data.length
  let l1 := (placeL l offset).write (fm.blockHdr docSize blk (nextOf fm next))
  let l2 := copyL 512 (by decide) l1 data
  (l2.write (List.replicate (blk - data.length) 0), offsetL l offset)

/-- Document.write: container_doc.py:133-134 -/
def writeDocL (fm : Fmt) (l : LFile) (data : Bytes) (minBlock : Nat) : LFile × Nat :=
  writeBlockL fm l data data.length minBlock none none

/-- Container.add_file without compression (the product file is built with nested=True, v8unpack.py:110):
container.py:258-278 -/
def addFileL (fm : Fmt) (l : LFile) (name : List Char) (ct mt : Nat) (data : Bytes) :
    LFile × Except Err TocEntry :=
  match attrBytes ct mt name with
  | .error e => (l, .error e)
  | .ok ab =>
    let a := writeDocL fm l ab 0
    let d := writeDocL fm a.1 data defaultBlock
    (d.1, .ok (a.2, some d.2))

/-- the loop of Container.build: container.py:202-211; an exception leaves the file as it is -/
def addAllL (fm : Fmt) : List Entry → LFile × List TocEntry → LFile × Except Err (List TocEntry)
  | [], acc => (acc.1, .ok acc.2)
  | e :: es, (l, toc) =>
    match e.node with
    | .dir => (l, .error .value)
    | .file ct mt data =>
      match addFileL fm l e.name ct mt data with
      | (l, .error er) => (l, .error er)
      | (l, .ok t) => addAllL fm es (l, toc ++ [t])

/-- further blocks of a long table of contents: container.py:250-254 -/
def tocTailL (fm : Fmt) : Nat → LFile → Nat → Bytes → LFile × Bytes
  | 0, l, _, rest => (l, rest)
  | k+1, l, nbo, rest =>
    let nbo := nbo + fm.indexBlock + fm.blockHeader
    tocTailL fm k (writeBlockL fm l (rest.take fm.indexBlock) 0 fm.indexBlock none (some nbo)).1 nbo
      (rest.drop fm.indexBlock)

/-- Container.write_table_off_content: container.py:226-256 -/
def writeTocL (fm : Fmt) (l : LFile) (toc : List TocEntry) : LFile × Except Err Unit :=
  if toc = [] then (l, .error .io)
  else match packToc fm toc with
    | .error e => (l, .error e)
    | .ok t =>
      let total := ceilDiv t.length fm.indexBlock
      if total = 1 then
        ((writeBlockL fm l t t.length 0 (some fm.headerSize) none).1, .ok ())
      else
        let nbo := l.w.bytes.length
        let l1 := (writeBlockL fm l (t.take fm.indexBlock) t.length fm.indexBlock (some fm.headerSize) (some nbo)).1
        let r := tocTailL fm (total - 1) (l1.seek l1.w.bytes.length) nbo (t.drop fm.indexBlock)
        ((writeBlockL fm r.1 (r.2.take fm.indexBlock) 0 fm.indexBlock none none).1, .ok ())

/-- Container.write_header: container.py:214-224 -/
def writeHeaderL (fm : Fmt) (l : LFile) (offset count : Nat) : LFile × Except Err Unit :=
  if count < 2^31 then
    (((l.seek offset).write (leBytes fm.idxW fm.marker ++ leBytes 4 defaultBlock ++ leBytes 4 count ++ leBytes 4 0)).write
      (List.replicate (fm.indexBlock + fm.blockHeader) 0), .ok ())
  else (l.seek offset, .error .struct)

/-- the table after the files, unless an exception was raised: container.py:212 -/
def tableL (fm : Fmt) : LFile × Except Err (List TocEntry) → LFile × Except Err Unit
  | (l, .error e) => (l, .error e)
  | (l, .ok toc) => writeTocL fm l toc

/-- the files after the header, unless an exception was raised: container.py:202-212 -/
def filesL (fm : Fmt) (files : List Entry) : LFile × Except Err Unit → LFile × Except Err Unit
  | (l, .error e) => (l, .error e)
  | (l, .ok _) => tableL fm (addAllL fm files (l, []))

/-- Container.build with nested=True: container.py:197-212 -/
def buildL (fm : Fmt) (l : LFile) (listing : List Entry) (offset : Nat) : LFile × Except Err Unit :=
  let files := listing.mergeSort entryLe
  filesL fm files (writeHeaderL fm l offset files.length)

/-- container_writer.build for one container: the file is emptied by open(filename, 'w+b') and filled
(container_writer.py:40-43) -/
def buildFileL (listing : List Entry) : LFile × Except Err Unit := buildL fmt32 ⟨⟨[], 0⟩, []⟩ listing 0

/-! ### Specification: the file after an interruption -/

/-- the file after these write calls, on an empty file -/
def replay (f : Bytes) : List (Nat × Bytes) → Bytes
  | [] => f
  | (p, b) :: rest => replay (writeAt f p b) rest

/-- `g` is a state in which a process that makes these write calls can leave the file when it is stopped: nothing was
written yet, or the calls of `done` were carried out and the first `k` bytes of the next one.  Bytes are written in
order (the buffer of the file object is flushed in order). -/
def Stopped (log : List (Nat × Bytes)) (g : Bytes) : Prop :=
  g = [] ∨ ∃ done p b rest k, log = done ++ (p, b) :: rest ∧ k ≤ b.length ∧
    g = writeAt (replay [] done) p (b.take k)

end V8.Crash
