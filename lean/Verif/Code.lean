import Verif.Text
/-
Model of /repo/src/v8unpack/organizer_code.py (splitting module code into include areas and inlining them back) and of
OrganizerFile.unpack_code_file, /repo/src/v8unpack/organizer_file.py:80-109, for the class OrganizerFile (no per-file
versions).  Texts are as seen after Python's new-line translation.  A directory is its list of components from the file
system root; a file is a directory and a name.  The names of areas are assumed not to contain path separators.
-/
namespace V8.Code
open V8.Str

inductive AreaType
  | incl   -- 'include'
  | incr   -- 'includr': only read
deriving Repr, DecidableEq

/-- what the stripped line is: lines 12-18, 36-60.  `area typ key directive`: lines 40-41, 95-98 -/
inductive Kind
  | area (typ : AreaType) (key : Text) (directive : Option Text)
  | region
  | close
  | other
deriving Repr, DecidableEq

/-- `_line[17:].strip().split(' //')`: first part and second part if any (lines 40, 95-98) -/
def areaName (s : Text) : Text × Option Text :=
  let r := breakOn " //".toList (strip (s.drop 17))
  (r.1, r.2.map (fun x => (breakOn " //".toList x).1))

/-- is_area: lines 12-18 -/
def isArea (s : Text) : Option AreaType :=
  if s.take 17 = "#Область include_".toList then some .incl
  else if s.take 17 = "#Область includr_".toList then some .incr
  else none

/-- lines 36-41, 54 -/
def kind (line : Text) : Kind :=
  let s := strip line
  if s.head? = some '#' then
    if starts "#Область".toList s then
      match isArea s with
      | some typ => .area typ (areaName s).1 (areaName s).2
      | none => .region
    else if starts "#КонецОбласти".toList s then .close
    else .other
  else .other

/-- lines 32-35: the part of a line before `//DynamicDirective` is dropped -/
def dynStrip (line : Text) : Text :=
  match rfindDrop " //DynamicDirective".toList line with
  | some r => if '&' ∈ line then r.drop 1 else line
  | none => line

structure Area where
  typ : AreaType
  data : Text
deriving Repr, DecidableEq

/-- `code_areas`: a Python dict, in insertion order -/
abbrev Areas := List (Text × Area)

/-- `code_areas[k]['data'] += line` -/
def addTo (A : Areas) (k line : Text) : Areas := A.map (fun p => if p.1 = k then (p.1, { p.2 with data := p.2.data ++ line }) else p)

/-- `code_areas[k] = a`: an existing key keeps its position -/
def setKey (A : Areas) (k : Text) (a : Area) : Areas :=
  if A.any (fun p => p.1 = k) then A.map (fun p => if p.1 = k then (k, a) else p) else A ++ [(k, a)]

structure UState where
  areas : Areas
  path : List Text       -- `_path`, innermost first
  incl : List Text       -- `_include_path`, innermost first
deriving Repr, DecidableEq

/-- lines 24-26 (the type of the root is never looked at) -/
def uInit : UState := ⟨[("root".toList, ⟨.incl, []⟩)], [[]], ["root".toList]⟩

/-- the loop body, lines 30-65; `none` is the ExtException of line 65 (IndexError inside) -/
def uStep (s : UState) (line : Text) : Option UState :=
  let l := dynStrip line
  match s.incl with
  | [] => none
  | k :: ks =>
    match kind line with
    | .area typ key _ =>
      some ⟨setKey (addTo s.areas k l) key ⟨typ, []⟩, key :: s.path, key :: s.incl⟩
    | .region => some ⟨addTo s.areas k l, [] :: s.path, s.incl⟩
    | .close =>
      match s.path with
      | [] => none
      | p :: ps =>
        if p ≠ [] then
          match ks with
          | [] => none
          | k2 :: _ => some ⟨addTo s.areas k2 l, ps, ks⟩
        else some ⟨addTo s.areas k l, ps, s.incl⟩
    | .other => some ⟨addTo s.areas k l, s.path, s.incl⟩

def uSteps (s : UState) : List Text → Option UState
  | [] => some s
  | l :: ls => match uStep s l with
    | none => none
    | some s => uSteps s ls

/-- OrganizerCode.unpack: lines 20-66 -/
def unpack (t : Text) : Option Areas := (uSteps uInit (Brace.lines t)).map (·.areas)

/-! ### Where areas are stored -/

abbrev Dir := List Text

/-- os.path.abspath(os.path.join(base, *rel)) -/
def resolve (base : Dir) (rel : List Text) : Dir :=
  rel.foldl (fun acc c => if c = "..".toList then acc.dropLast else if c = ".".toList ∨ c = [] then acc else acc ++ [c]) base

/-- fixed parameters of a run: the source folder, `index_code_areas`, whether a version (descent) is given -/
structure Env where
  src : Dir
  index : Text → Option Text
  descent : Bool

/-- lines 121-122 -/
def Env.name (e : Env) (key : Text) : Text := (e.index key).getD key

/-- parse_include_path: lines 119-136, followed by os.path.abspath(os.path.join(src_dir, _path)) of its callers
(organizer_file.py:94, organizer_code.py:81, 102); `cur` is the absolute directory of `path` -/
def parse (e : Env) (key : Text) (cur : Dir) : Dir × Text :=
  let tmp := split '_' (e.name key)
  let file := tmp.getLast?.getD [] ++ ".bsl".toList
  let up := if e.descent then ["..".toList, "..".toList] else ["..".toList]
  let rel := up ++ tmp.dropLast.map (fun c => if c = [] then "..".toList else c)
  (if rel = ["..".toList] then cur else resolve e.src rel, file)

/-- the file system: contents of text files -/
abbrev FS := Dir × Text → Option Text

def FS.write (fs : FS) (f : Dir × Text) (t : Text) : FS := fun g => if g = f then some t else fs g

/-- unpack_code_file, organizer_file.py:85-103 with the base class file names: the root goes to `rootFile`
(get_dest_path), include areas to their files, includr areas nowhere -/
def writeAreas (e : Env) (modDir : Dir) (rootFile : Dir × Text) (fs : FS) (A : Areas) : FS :=
  A.foldl (fun fs p =>
    if p.1 = "root".toList then fs.write rootFile p.2.data
    else if p.2.typ = .incr then fs
    else fs.write (parse e p.1 modDir) p.2.data) fs

/-- unpack_code_file: organizer_file.py:80-109 -/
def unpackFile (e : Env) (modDir : Dir) (rootFile : Dir × Text) (fs : FS) (t : Text) : Option FS :=
  (unpack t).map (writeAreas e modDir rootFile fs)

/-! ### Inlining -/

/-- lines 89-91 -/
def dynRestore (d : Option Text) (line : Text) : Text :=
  match d with
  | some x => if x ≠ [] ∧ starts "//DynamicDirective".toList (strip line) then x ++ ' ' :: line else line
  | none => line

/-- lines 93-106: the area a line includes (the test of line 93 is part of is_area) -/
def included (line : Text) : Option (Text × Option Text) :=
  let s := strip line
  match isArea s with
  | some _ => some (areaName s)
  | none => none

/-- the loop, lines 86-108; `rec` is the recursive call -/
def packLines (e : Env) (rec : Dir × Text → Option Text → Option Text) (cur : Dir) (d : Option Text) : List Text → Option Text
  | [] => some []
  | line :: ls =>
    let head := dynRestore d line
    match included line with
    | none => (packLines e rec cur d ls).map (head ++ ·)
    | some (key, d') =>
      match rec (parse e key cur) (d'.or d) with
      | none => none
      | some body => (packLines e rec cur d ls).map (head ++ body ++ ·)

/-- pack_file: lines 75-117; `none` is the ExtException raised when a file is missing or the recursion does not end -/
def packFile (e : Env) (fs : FS) : Nat → Dir × Text → Option Text → Option Text
  | 0, _, _ => none
  | n + 1, f, d => match fs f with
    | none => none
    | some t => packLines e (packFile e fs n) f.1 d (Brace.lines t)

end V8.Code
