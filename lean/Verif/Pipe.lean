import Verif.Org
import Verif.Tree
import Verif.JsonTextMain
/-
How the stages of an extraction and of a build hand their files to each other:
/repo/src/v8unpack/v8unpack.py:25-71 (extract: the sources are written to a temporary folder, which the organizer lays out), 73-125 (build: the organizer
puts the files together in a temporary folder, which is then built),
/repo/src/v8unpack/organizer_file.py:30-46, 133-152 (the folder is walked), /repo/src/v8unpack/organizer_form_elem.py:14-21, 130-142 (json_read, json_write),
/repo/src/v8unpack/MetaObject/__init__.py:191-221 (encode_includes: the folders `type/name` below the folder of an object).

A folder of the sources as a tree (Verif/Tree.lean) and as a set of files by path (Verif/Org.lean) are related here.  Folders without files are not
modelled.
-/
namespace V8.Pipe
open V8.Str V8.Brace V8.Enc V8.JsonText V8.Object V8.Store
open V8.Code (Dir)

/-! ### the elements of a form, as the organizer sees them -/

def childWord : Text := "child".toList

/-- the entry that the organizer moves: a list of nested elements -/
def moved (p : Text × JT) : Bool := decide (p.1 = childWord) && (match p.2 with
  | .arr _ => true
  | _ => false)

/-- the rest of an element -/
def restOf (d : List (Text × JT)) : List (Text × JT) := d.filter (fun p => !moved p)

/-- a text; anything else counts as empty: organizer_form_elem.py:32, 48 (Simplification: a name that is no text is an exception there) -/
def wordOf (d : List (Text × JT)) (k : Text) : Text := match dget d k with
  | some (.str s) => s
  | _ => []

mutual
/-- an entry of the tree: organizer_form_elem.py:43-75, 149-172.  The rest of the entry is kept as its JSON text. -/
def nodeE : JT → Option V8.Areas.Node
  | .obj d => (kidsE d).map (fun c => .mk (wordOf d "name".toList) (wordOf d "page".toList) (dump 0 (.obj (restOf d))) c)
  | _ => none
/-- `elem.get('child')`.  Simplification: what is neither a list nor null is an exception. -/
def kidsE : List (Text × JT) → Option (Option (List V8.Areas.Node))
  | [] => some none
  | (k, v) :: r => if k = childWord then childE v else kidsE r
def childE : JT → Option (Option (List V8.Areas.Node))
  | .null => some none
  | .arr l => (nodesE l).map some
  | _ => none
def nodesE : List JT → Option (List V8.Areas.Node)
  | [] => some []
  | j :: r => (nodeE j).bind (fun n => (nodesE r).map (fun l => n :: l))
end

def treeWord : Text := "tree".toList
def dataWord : Text := "data".toList

/-- `elements['tree']` -/
def treeE (d : List (Text × JT)) : Option (List V8.Areas.Node) := match dget d treeWord with
  | some (.arr l) => nodesE l
  | _ => none

/-- `elements['data']` -/
def dataE (d : List (Text × JT)) : Option (List (Text × JT)) := match dget d dataWord with
  | some (.obj m) => some m
  | _ => none

/-- the other entries -/
def besides (d : List (Text × JT)) : List (Text × JT) := d.filter (fun p => !decide (p.1 = treeWord) && !decide (p.1 = dataWord))

/-- the content of the file of the elements of a form: organizer_form_elem.py:18-20, 132-136 -/
def elemsOf : JT → Option (V8.Areas.Elems JT)
  | .obj d => (treeE d).bind (fun t => (dataE d).map (fun m => ⟨t, dget m, dump 0 (.obj (besides d))⟩))
  | _ => none

/-- what iterating over an entry of the data gives: organizer_form_elem.py:99, 196: the texts of a list of pages, the keys of an entry -/
def namesOf : JT → List Text
  | .arr l => l.filterMap (fun v => match v with
    | .str s => some s
    | _ => none)
  | .obj d => d.map (·.1)
  | _ => []

/-! ### the files of a folder of sources -/

/-- the folders of nested objects as a list -/
def subsList : V8.Tree.Subs → List (Text × Text × V8.Tree.Dir)
  | .nil => []
  | .cons ty nm d r => (ty, nm, d) :: subsList r

/-- the file `n` in the folder `p` below the folder `d` has the content `b`.  The folder copied for a web service reference is kept in the tree under its
relative path (WSReference.py:18). -/
inductive InDir : V8.Tree.Dir → Dir → Text → Bytes → Prop where
  | own {files : List (Place Node)} {subs : V8.Tree.Subs} {n : Text} {b : Bytes} (h : folder files n = some (.file b)) : InDir (.mk files subs) [] n b
  | copied {files : List (Place Node)} {subs : V8.Tree.Subs} {m n : Text} {g : Text → Option Bytes} {b : Bytes} (h : folder files m = some (.dir g))
      (hg : g n = some b) : InDir (.mk files subs) (split '/' m) n b
  | nested {files : List (Place Node)} {subs : V8.Tree.Subs} {ty nm : Text} {d : V8.Tree.Dir} {p : Dir} {n : Text} {b : Bytes}
      (hm : (ty, nm, d) ∈ subsList subs) (h : InDir d p n b) : InDir (.mk files subs) (ty :: nm :: p) n b

/-- how the organizer sees the bytes `b` of the file `n`: the elements of a form are read as JSON (organizer_form_elem.py:18) -/
def Seen (n : Text) (b : Bytes) (c : V8.Org.Content JT) : Prop :=
  if V8.Org.isElem n = true then ∃ j e, readFile b = some j ∧ elemsOf j = some e ∧ c = .elems e else c = .bytes b

/-- `b` are bytes the organizer may write for `c`: for the elements of a form a JSON file with these elements (organizer_form_elem.py:142); the order of the
keys is left open -/
def Wrote (win : Bool) : V8.Org.Content JT → Bytes → Prop
  | .bytes b', b => b = b'
  | .elems e, b => ∃ j : JT, j.WF ∧ b = fileOf win j ∧ elemsOf j = some e

/-- the files of a folder: relative folder, name and bytes -/
abbrev Disk := Dir × Text → Option Bytes

/-- the disk holds, relative to the folder that is built, what the organizer built: organizer_file.py:133-152 -/
def Saved (win : Bool) (d : Dir × Text → Option (V8.Org.Content JT)) (D : Disk) : Prop :=
  ∀ f, (d f = none → D f = none) ∧ ∀ c, d f = some c → ∃ b, D f = some b ∧ Wrote win c b

/-- `l` are the files of the folder `dir` as the organizer sees them, in the order in which it lists them: organizer_file.py:30-46 -/
def Found (dir : V8.Tree.Dir) (l : List (V8.Org.Item JT)) : Prop := ∀ p n c, (p, n, c) ∈ l ↔ ∃ b, InDir dir p n b ∧ Seen n b c

/-- what is found under a name in the folder `p`: a file, or a folder with files.  A relative path like `a/b` counts as a name. -/
noncomputable def nodeAt (D : Disk) (p : Dir) (n : Text) : Option Node := match D (p, n) with
  | some b => some (.file b)
  | none => open Classical in if ∃ x, D (p ++ split '/' n, x) ≠ none then some (.dir (fun x => D (p ++ split '/' n, x))) else none

/-- `d` is the folder `p` of the disk as the build finds it: encode_includes, MetaObject/__init__.py:191-208: for each folder below it and each folder in
that one there is a nested object, in any order -/
inductive Shows (D : Disk) : Dir → V8.Tree.Dir → Prop where
  | mk {p : Dir} {files : List (Place Node)} {subs : V8.Tree.Subs} (hf : ∀ n, folder files n = nodeAt D p n)
      (hn : ((subsList subs).map (fun q => (q.1, q.2.1))).Nodup)
      (hs : ∀ ty nm, (ty, nm) ∈ (subsList subs).map (fun q => (q.1, q.2.1)) ↔ ∃ q n, D (p ++ ty :: nm :: q, n) ≠ none)
      (hd : ∀ q ∈ subsList subs, Shows D (p ++ [q.1, q.2.1]) q.2.2) : Shows D p (.mk files subs)

end V8.Pipe
