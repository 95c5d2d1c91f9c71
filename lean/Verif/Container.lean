import Verif.Bytes
/-
Model of /repo/src/v8unpack/container.py, container_doc.py, container_reader.py (extract, detect_format) and
container_writer.py (build): the binary 1C container, byte for byte.
-/
namespace V8

/-- The class constants of `Container` (container.py:29-37) and `Container64` (container.py:296-304). -/
structure Fmt where
  marker : Nat          -- end_marker
  idxW : Nat            -- width in bytes of index_fmt ('i' = 4, 'Q' = 8); also of the first header field
  idxLimit : Nat        -- struct.pack(index_fmt, n) raises for n ≥ idxLimit
  signed : Bool         -- 'i' is signed
  hexW : Nat            -- block_header_fmt_size
  upper : Bool          -- Container64.int2hex upper-cases
  indexBlock : Nat      -- index_block_size
deriving DecidableEq, Repr

/-- container.py:28-37 -/
def fmt32 : Fmt := ⟨0x7fffffff, 4, 2^31, true, 8, false, 0x200⟩
/-- container.py:295-304 -/
def fmt64 : Fmt := ⟨0xffffffffffffffff, 8, 2^64, false, 16, true, 0x10000⟩

/-- header_size: '4i' = 16, '1Q3i' = 20 -/
def Fmt.headerSize (fm : Fmt) : Nat := fm.idxW + 12
/-- block_header_size: 31 and 55 (2+w+1+w+1+w+1+2) -/
def Fmt.blockHeader (fm : Fmt) : Nat := 3 * fm.hexW + 7
/-- default_block_size = 0x200 (container.py:36,43) -/
def defaultBlock : Nat := 0x200

/-- int2hex: container.py:281-292 and 307-318 -/
def Fmt.int2hex (fm : Fmt) (v : Nat) : Bytes :=
  let s := rjust fm.hexW (rjust 2 (toHex v))
  if fm.upper then s.map upperByte else s

/-- the header tuple packed with block_header_fmt: container_doc.py:154-156 -/
def Fmt.blockHdr (fm : Fmt) (doc blk next : Nat) : Bytes :=
  [13, 10] ++ packS fm.hexW (fm.int2hex doc) ++ [32] ++ packS fm.hexW (fm.int2hex blk) ++ [32] ++
    packS fm.hexW (fm.int2hex next) ++ [32] ++ [13, 10]

/-! ### Reading -/

/-- `Block`: container_doc.py:17 -/
structure Block where
  docSize : Nat
  blockSize : Nat
  next : Nat
  data : Bytes
deriving DecidableEq, Repr

/-- `if max_data_length is None`: container_doc.py:116-117 -/
def effMax (mx : Option Nat) (blk doc : Nat) : Nat :=
  match mx with
  | none => min blk doc
  | some m => m

/-- Document.read_block: container_doc.py:92-123.  `coff` is container.offset.  `none` is the Python `None`
returned at end of file. -/
def readBlock (fm : Fmt) (f : Bytes) (coff off : Int) (maxLen : Option Nat) : Except Err (Option Block) :=
  let at_ := off + coff
  if at_ < 0 then .error .value
  else
    let o := at_.toNat
    let buff := readAt f o fm.blockHeader
    if buff = [] then .ok none
    else if buff.length ≠ fm.blockHeader then .error .struct
    else
      match parseHex (readAt buff 2 fm.hexW), parseHex (readAt buff (fm.hexW + 3) fm.hexW),
            parseHex (readAt buff (2 * fm.hexW + 4) fm.hexW) with
      | some doc, some blk, some next =>
        let n := min blk (effMax maxLen blk doc)
        .ok (some ⟨doc, blk, next, readAt f (o + fm.blockHeader) n⟩)
      | _, _, _ => .error .value

/-- the `while` loop of _read_gen: container_doc.py:86-90 (chunks concatenated) -/
def readChain (fm : Fmt) (f : Bytes) (coff : Int) : Nat → Nat → Nat → Except Err Bytes
  | 0, left, next => if left > 0 ∧ next ≠ fm.marker then .error .fuel else .ok []
  | fuel+1, left, next =>
    if left > 0 ∧ next ≠ fm.marker then
      match readBlock fm f coff next (some left) with
      | .error e => .error e
      | .ok none => .error .attr
      | .ok (some b) =>
        match readChain fm f coff fuel (left - b.data.length) b.next with
        | .error e => .error e
        | .ok rest => .ok (b.data ++ rest)
    else .ok []

/-- `Document` after a complete read -/
structure Doc where
  fullSize : Int
  dataSize : Nat
  data : Bytes
deriving DecidableEq, Repr

/-- `math.ceil(a / b)` for positive b.  Simplification: exact rational arithmetic instead of floating
point (equal below 2^53). -/
def ceilDiv (a b : Nat) : Nat := (a + b - 1) / b

/-- full_size computation: container_doc.py:68-75 -/
def fullSize (fm : Fmt) (doc blk : Nat) (minBlock : Int) : Except Err Int :=
  let d : Int := max (doc : Int) minBlock
  if d > blk then
    if blk = 0 then .error .zeroDiv
    else
      .ok (d + (ceilDiv doc blk : Nat) * minBlock +
        (if minBlock = fm.indexBlock then (fm.indexBlock : Int) else 0))
  else .ok (d + fm.blockHeader)

/-- Document.read / read_chunk / _read_gen: container_doc.py:31-90.  The generator is run to its end.
Simplification: for file contents the code runs the rest of the generator only when the entry is written
to disk, so an error in a later block surfaces there instead of here. -/
def readDoc (fm : Fmt) (fuel : Nat) (f : Bytes) (coff off : Int) (minBlock : Int) : Except Err Doc :=
  match readBlock fm f coff off none with
  | .error e => .error e
  | .ok none => .error .attr
  | .ok (some hb) =>
    match fullSize fm hb.docSize hb.blockSize minBlock with
    | .error e => .error e
    | .ok full =>
      match readChain fm f coff fuel (hb.docSize - hb.data.length) hb.next with
      | .error e => .error e
      | .ok rest => .ok ⟨full, hb.docSize, hb.data ++ rest⟩

/-- signed or unsigned struct.unpack of one index word -/
def Fmt.unpackIdx (fm : Fmt) (b : Bytes) : Int :=
  let n := leNat b
  if fm.signed ∧ n ≥ 2 ^ (8 * fm.idxW - 1) then (n : Int) - 2 ^ (8 * fm.idxW) else n

/-- unpack(f'2{index_fmt}', x): container.py:171 -/
def Fmt.unpackPair (fm : Fmt) (x : Bytes) : Except Err (Int × Int) :=
  if x.length ≠ 2 * fm.idxW then .error .struct
  else .ok (fm.unpackIdx (x.take fm.idxW), fm.unpackIdx (x.drop fm.idxW))

def mapExcept {α β} (g : α → Except Err β) : List α → Except Err (List β)
  | [] => .ok []
  | a :: as => match g a with
    | .error e => .error e
    | .ok b => match mapExcept g as with
      | .error e => .error e
      | .ok bs => .ok (b :: bs)

/-- last representable microsecond of datetime (9999-12-31 23:59:59.999999) since 0001-01-01 -/
def maxMicros : Nat := 315537897599999999
/-- parse_datetime: container.py:142-156, as microseconds since 0001-01-01 00:00 -/
def parseDatetime (t : Nat) : Nat := if t * 100 ≤ maxMicros then t * 100 else 315537897599000000

/-- `File`: container_doc.py:18 -/
structure File where
  name : List Char
  size : Nat
  created : Nat
  modified : Nat
  data : Bytes
deriving DecidableEq, Repr

/-- unpack of 'QQi<n>s' and decoding of the name: container.py:180-185.
Returns creation time, modification time and name. -/
def parseAttr (dataSize : Nat) (d : Bytes) : Except Err (Nat × Nat × List Char) :=
  if dataSize < 20 then .error .struct            -- 'QQi-5s' is not a format
  else if d.length ≠ dataSize then .error .struct
  else match utf16Decode (d.drop 20) with
    | none => .error .unicode
    | some s => .ok (leNat (d.take 8), leNat ((d.drop 8).take 8), untilNul s)

/-- `files[inner_file.name] = inner_file` on an OrderedDict: container.py:194 -/
def putFile (files : List File) (x : File) : List File :=
  if files.any (·.name = x.name) then files.map (fun y => if y.name = x.name then x else y) else files ++ [x]

/-- the loop over the table of contents: container.py:176-194; `acc` is (size, files) -/
def readEntries (fm : Fmt) (fuel : Nat) (f : Bytes) (coff : Int) (dflt : Int) :
    List (Int × Int) → Int × List File → Except Err (Int × List File)
  | [], acc => .ok acc
  | (ao, dof) :: rest, (size, files) =>
    match readDoc fm fuel f coff ao 0 with
    | .error e => .error e
    | .ok ad =>
      match parseAttr ad.dataSize ad.data with
      | .error e => .error e
      | .ok (ct, mt, name) =>
        match readDoc fm fuel f coff dof dflt with
        | .error e => .error e
        | .ok dd =>
          readEntries fm fuel f coff dflt rest
            (size + ad.fullSize + dd.fullSize,
             putFile files ⟨name, dd.dataSize, parseDatetime ct, parseDatetime mt, dd.data⟩)

/-- result of Container.read -/
structure ReadResult where
  size : Int
  files : List File
deriving DecidableEq, Repr

/-- signed 32-bit little endian -/
def leInt32 (b : Bytes) : Int :=
  let n := leNat b
  if n ≥ 2 ^ 31 then (n : Int) - 2 ^ 32 else n

/-- Container.read + read_header + read_files: container.py:48-62, 126-140, 158-195 -/
def readContainer (fm : Fmt) (fuel : Nat) (f : Bytes) (coff : Int) : Except Err ReadResult :=
  if coff < 0 then .error .value
  else
    let buff := readAt f coff.toNat fm.headerSize
    if buff.length ≠ fm.headerSize then .error .struct
    else
      let dflt := leInt32 ((buff.drop fm.idxW).take 4)
      if dflt = 0 then .error .buffer
      else match readDoc fm fuel f coff fm.headerSize fm.indexBlock with
        | .error e => .error e
        | .ok toc =>
          match mapExcept fm.unpackPair (bsplit (leBytes fm.idxW fm.marker) toc.data).dropLast with
          | .error e => .error e
          | .ok offs =>
            match readEntries fm fuel f coff dflt offs (fm.headerSize + toc.fullSize, []) with
            | .error e => .error e
            | .ok (size, files) => .ok ⟨size, files⟩

/-- detect_format: container_reader.py:48-58; `none` = EOFError -/
def detectFormat (f : Bytes) (off : Int) : Except Err (Option Fmt) :=
  if off < 0 then .error .value
  else
    let first := readAt f off.toNat 8
    if first.take 4 = [0xFF, 0xFF, 0xFF, 0x7F] then .ok (some fmt32)
    else if first = [] then .ok none
    else .ok (some fmt64)

/-- the loop of extract: container_reader.py:30-43.  Returns the list of containers found (folder `str(i)`
receives the i-th).  `steps` bounds the number of iterations, `fuel` the length of block chains. -/
def extractLoop (f : Bytes) (fuel : Nat) : Nat → Int → Except Err (List (List File))
  | 0, _ => .error .fuel
  | steps+1, off =>
    match detectFormat f off with
    | .error e => .error e
    | .ok none => .ok []
    | .ok (some fm) =>
      match readContainer fm fuel f off with
      | .error e => .error e
      | .ok r =>
        if off + r.size = 0 then .error .notImpl
        else match extractLoop f fuel steps (off + r.size) with
          | .error e => .error e
          | .ok rest => .ok (r.files :: rest)

/-! ### Writing -/

/-- one entry of the source directory: container.py:202-211 -/
inductive Node
  | file (ctime mtime : Nat) (data : Bytes)
  | dir
deriving DecidableEq, Repr

structure Entry where
  name : List Char
  node : Node
deriving DecidableEq, Repr

/-- the output file object: contents and position -/
structure WFile where
  bytes : Bytes
  pos : Nat
deriving DecidableEq, Repr

def WFile.write (w : WFile) (b : Bytes) : WFile := ⟨writeAt w.bytes w.pos b, w.pos + b.length⟩
def WFile.seek (w : WFile) (o : Nat) : WFile := ⟨w.bytes, o⟩

/-- copying in portions: Document.write_block_data, container_doc.py:180-186; `n` is BUFFER_CHUNK_SIZE -/
def copyChunks (n : Nat) (hn : 0 < n) (dest : WFile) (src : Bytes) : WFile :=
  if _h : src = [] then dest
  else copyChunks n hn (dest.write (src.take n)) (src.drop n)
termination_by src.length
decreasing_by
  have : 0 < src.length := List.length_pos_iff.mpr _h
  simp only [List.length_drop]; omega

/-- `if not next_block_offset`: container_doc.py:151-152 -/
def nextOf (fm : Fmt) (next : Option Nat) : Nat :=
  match next with
  | some n => if n = 0 then fm.marker else n
  | none => fm.marker

/-- Document.write_block: container_doc.py:136-163.  Returns the new file and the offset. -/
def writeBlock (fm : Fmt) (w : WFile) (data : Bytes) (docSize minBlock : Nat)
    (offset : Option Nat) (next : Option Nat) : WFile × Nat :=
  let (w, off) := match offset with
    | some o => (w.seek o, o)
    | none => (w, w.bytes.length)
  let blk := max minBlock data.length
  let w := w.write (fm.blockHdr docSize blk (nextOf fm next))
  let w := copyChunks 512 (by decide) w data
  (w.write (List.replicate (blk - data.length) 0), off)

/-- Document.write: container_doc.py:133-134 -/
def writeDoc (fm : Fmt) (w : WFile) (data : Bytes) (minBlock : Nat) : WFile × Nat :=
  writeBlock fm w data data.length minBlock none none

/-- the attribute document: container_doc.py:125-131; times are in units of 100 µs; struct.pack('Q') raises
beyond 64 bits -/
def attrBytes (ct mt : Nat) (name : List Char) : Except Err Bytes :=
  if ct < 2^64 ∧ mt < 2^64 then
    .ok (leBytes 8 ct ++ leBytes 8 mt ++ [0, 0, 0, 0] ++ utf16le name ++ [0, 0, 0, 0])
  else .error .struct

/-- a toc entry; the data offset is Python `None` after `compress` (container.py:274) -/
abbrev TocEntry := Nat × Option Nat

/-- Container.add_file: container.py:258-278.  `deflate` stands for zlib (raw, whole stream);
`Document.compress` (container_doc.py:166-177) returns None and writes the bare stream. -/
def addFile (fm : Fmt) (deflate : Bytes → Bytes) (inflate : Bool) (w : WFile) (name : List Char)
    (ct mt : Nat) (data : Bytes) : Except Err (WFile × TocEntry) :=
  match attrBytes ct mt name with
  | .error e => .error e
  | .ok ab =>
    let (w, ao) := writeDoc fm w ab 0
    if inflate then .ok (copyChunks 512 (by decide) w (deflate data), (ao, none))
    else
      let (w, dof) := writeDoc fm w data defaultBlock
      .ok (w, (ao, some dof))

/-- the loop of Container.build: container.py:202-211.  For a sub-directory the temporary file is already
closed when it is added (container.py:205-208), which raises ValueError. -/
def addAll (fm : Fmt) (deflate : Bytes → Bytes) (inflate : Bool) :
    List Entry → WFile × List TocEntry → Except Err (WFile × List TocEntry)
  | [], acc => .ok acc
  | e :: es, (w, toc) =>
    match e.node with
    | .dir => .error .value
    | .file ct mt data =>
      match addFile fm deflate inflate w e.name ct mt data with
      | .error er => .error er
      | .ok (w, t) => addAll fm deflate inflate es (w, toc ++ [t])

/-- struct.pack(index_fmt, n) -/
def Fmt.packIdx (fm : Fmt) (n : Nat) : Except Err Bytes :=
  if n < fm.idxLimit then .ok (leBytes fm.idxW n) else .error .struct

/-- the temporary table of contents: container.py:231-232 -/
def packToc (fm : Fmt) : List TocEntry → Except Err Bytes
  | [] => .ok []
  | (_, none) :: _ => .error .struct
  | (a, some d) :: rest =>
    match fm.packIdx a, fm.packIdx d, packToc fm rest with
    | .ok x, .ok y, .ok r => .ok (x ++ y ++ leBytes fm.idxW fm.marker ++ r)
    | _, _, _ => .error .struct

/-- further blocks of a long table of contents: container.py:250-254 -/
def tocTail (fm : Fmt) : Nat → WFile → Nat → Bytes → WFile × Bytes
  | 0, w, _, rest => (w, rest)
  | k+1, w, nbo, rest =>
    let nbo := nbo + fm.indexBlock + fm.blockHeader
    let (w, _) := writeBlock fm w (rest.take fm.indexBlock) 0 fm.indexBlock none (some nbo)
    tocTail fm k w nbo (rest.drop fm.indexBlock)

/-- Container.write_table_off_content: container.py:226-256 -/
def writeToc (fm : Fmt) (w : WFile) (toc : List TocEntry) : Except Err WFile :=
  if toc = [] then .error .io
  else match packToc fm toc with
    | .error e => .error e
    | .ok t =>
      let total := ceilDiv t.length fm.indexBlock
      if total = 1 then
        .ok (writeBlock fm w t t.length 0 (some fm.headerSize) none).1
      else
        let nbo := w.bytes.length
        let (w, _) := writeBlock fm w (t.take fm.indexBlock) t.length fm.indexBlock
          (some fm.headerSize) (some nbo)
        let w := w.seek w.bytes.length
        let (w, rest) := tocTail fm (total - 1) w nbo (t.drop fm.indexBlock)
        .ok (writeBlock fm w (rest.take fm.indexBlock) 0 fm.indexBlock none none).1

/-- order of `sorted(os.listdir(src_dir))`: by code points (container.py:200) -/
def entryLe (a b : Entry) : Bool := decide (a.name ≤ b.name)

/-- Container.write_header: container.py:214-224 -/
def writeHeader (fm : Fmt) (w : WFile) (offset count : Nat) : Except Err WFile :=
  if count < 2^31 then
    let w := w.seek offset
    let w := w.write (leBytes fm.idxW fm.marker ++ leBytes 4 defaultBlock ++ leBytes 4 count ++ leBytes 4 0)
    .ok (w.write (List.replicate (fm.indexBlock + fm.blockHeader) 0))
  else .error .struct

/-- Container.build: container.py:197-212 -/
def buildContainer (fm : Fmt) (deflate : Bytes → Bytes) (w : WFile) (listing : List Entry) (nested : Bool)
    (offset : Nat) : Except Err WFile :=
  let files := listing.mergeSort entryLe
  match writeHeader fm w offset files.length with
  | .error e => .error e
  | .ok w =>
    match addAll fm deflate (!nested) files (w, []) with
    | .error e => .error e
    | .ok (w, toc) => writeToc fm w toc

/-- container_writer.build: container_writer.py:17-49.  `dirs` are the container folders of src_dir in
ascending order of name; folder '0' must exist and, when there are two, folder '1'. -/
def buildFile (deflate : Bytes → Bytes) (dirs : List (List Entry)) (nested : Bool) : Except Err Bytes :=
  match dirs with
  | [d0] =>
    match buildContainer fmt32 deflate ⟨[], 0⟩ d0 nested 0 with
    | .error e => .error e
    | .ok w => .ok w.bytes
  | [d0, d1] =>
    match buildContainer fmt32 deflate ⟨[], 0⟩ d0 nested 0 with
    | .error e => .error e
    | .ok w =>
      match buildContainer fmt64 deflate (w.seek w.bytes.length) d1 nested w.bytes.length with
      | .error e => .error e
      | .ok w => .ok w.bytes
  | _ => .error .notImpl

/-- epoch2int: container_doc.py:189-202.  The local time is given as whole microseconds since 0001-01-01
(`datetime` has microsecond resolution; the conversion from a POSIX float is not modelled). -/
def epoch2int (micros : Nat) : Nat := micros / 100

/-- a history of plain document writes: repeated Document.write (container_doc.py:133-134); returns the final file
and the offsets handed out -/
def writeDocs (fm : Fmt) : WFile → List (Bytes × Nat) → WFile × List Nat
  | w, [] => (w, [])
  | w, (data, m) :: rest =>
    let r := writeDoc fm w data m
    let r' := writeDocs fm r.1 rest
    (r'.1, r.2 :: r'.2)

end V8
