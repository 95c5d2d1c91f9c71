import Verif.Form
/-
Model of /repo/src/v8unpack/organizer_form_elem.py: the elements of a form that belong to a group `include_X` are moved to a shared file.

A dictionary is a function to `Option`; the order of its entries is not modelled (the build looks entries up by key).  An exception is `none`.
`V` is the type of the entries of `data`; `names v` is what iterating over the entry `v` gives (the names, when it is a list of pages).
-/
namespace V8.Areas
open V8.Brace V8.Form

abbrev Dict (V : Type) := Text → Option V
def put {V : Type} (d : Dict V) (k : Text) (v : V) : Dict V := fun x => if x = k then some v else d x
def erase {V : Type} (d : Dict V) (k : Text) : Dict V := fun x => if x = k then none else d x

/-- an entry of the tree: a dictionary with the keys `name`, `page` (absent or null: the empty text), `child`; `info` stands for the rest.
`apart`: `child` is the text 'В отдельном файле'. -/
inductive Node
  | mk (name page info : Text) (child : Option (List Node))
  | apart (name page info : Text)

/-- is_area: lines 23-29; `some true` is 'include_', `some false` is 'includr_' -/
def areaType (name : Text) : Option Bool :=
  if name.take 8 = include' then some true else if name.take 8 = includr then some false else none

/-- get_old_path: lines 31-41; an absent name is the empty one -/
def oldPath (path page name : Text) : Text := joined (([path, page, name]).filter (fun t => decide (t ≠ [])))
where
  /-- `'/'.join` -/
  joined : List Text → Text
    | [] => []
    | [a] => a
    | a :: b :: r => a ++ '/' :: joined (b :: r)

/-- the end of the key of the list of pages: lines 95, 97 -/
def pagesKey : Text := ['/', '-', 'p', 'a', 'g', 'e', 's', '-']

/-- `old_path[size_prefix + 1:] if size_prefix else old_path`: lines 85, 97, 101 -/
def cut (size : Nat) (old : Text) : Text := if size = 0 then old else old.drop (size + 1)

/-- the loop over the pages: lines 99-105 -/
def popNames {V : Type} (size : Nat) (path : Text) : List Text → Dict V × Dict V → Dict V × Dict V
  | [], s => s
  | n :: r, (root, data) => match root (path ++ '/' :: n) with
    | none => popNames size path r (root, data)
    | some v => popNames size path r (erase root (path ++ '/' :: n), put data (cut size path ++ '/' :: n) v)

/-- the pages of a group: lines 95-105 -/
def popPages {V : Type} (names : V → List Text) (size : Nat) (path : Text) (s : Dict V × Dict V) : Dict V × Dict V :=
  match s.1 (path ++ pagesKey) with
  | none => s
  | some v => popNames size path (names v) (erase s.1 (path ++ pagesKey), put s.2 (cut size path ++ pagesKey) v)

/-- _pop_area_data, the loop over the elements: lines 80-93; the recursive call of line 93 goes on with the pages -/
def popLoop {V : Type} (names : V → List Text) (size : Nat) : List Node → Text → Dict V × Dict V → Option (Dict V × Dict V)
  | [], _, s => some s
  | .apart _ _ _ :: _, _, _ => none
  | .mk name page _ child :: r, path, (root, data) =>
    match root (oldPath path page name) with
    | none => none
    | some v => match child with
      | some (c :: cs) =>
        match popLoop names size (c :: cs) (oldPath path page name)
            (erase root (oldPath path page name), put data (cut size (oldPath path page name)) v) with
        | none => none
        | some s => popLoop names size r path (popPages names size (oldPath path page name) s)
      | _ => popLoop names size r path (erase root (oldPath path page name), put data (cut size (oldPath path page name)) v)
termination_by l => sizeOf l

/-- _pop_area_data: lines 77-108; `remove` is remove_path -/
def popArea {V : Type} (names : V → List Text) (tree : List Node) (path remove : Text) (s : Dict V × Dict V) : Option (Dict V × Dict V) :=
  (popLoop names remove.length tree path s).map (popPages names remove.length path)

/-- the content of an elements file; `extra` are the other keys (attributes, parameters, commands of the form; none in the file of an area) -/
structure Elems (V : Type) where
  tree : List Node
  data : Dict V
  extra : Text

/-- _unpack_get_areas: lines 43-75.  The result is the changed tree, the changed data and the assignments to `areas`, in order -/
def areasOut {V : Type} (names : V → List Text) : List Node → Text → Dict V → Option (List Node × Dict V × List (Text × Elems V))
  | [], _, root => some ([], root, [])
  | .apart name _ _ :: _, _, _ => none
  | .mk name page info child :: r, path, root => match areaType name with
    | some t =>
      match popArea names (child.getD []) (oldPath path page (include' ++ name.drop 8)) (oldPath path page []) (root, fun _ => none) with
      | none => none
      | some (root1, data) => match areasOut names r path root1 with
        | none => none
        | some (r', root2, areas) =>
          some (.apart name page info :: r', root2, if t then (name.drop 8, ⟨child.getD [], data, []⟩) :: areas else areas)
    | none => match child with
      | some (c :: cs) => match areasOut names (c :: cs) (oldPath path page name) root with
        | none => none
        | some (l', root1, areas1) => match areasOut names r path root1 with
          | none => none
          | some (r', root2, areas2) => some (.mk name page info (some l') :: r', root2, areas1 ++ areas2)
      | child => match areasOut names r path root with
        | none => none
        | some (r', root2, areas) => some (.mk name page info child :: r', root2, areas)
termination_by l => sizeOf l

/-- `d[k] = v` for the dictionary of the areas, whose order counts: the place of a key is that of its first assignment -/
def assign {β : Type} (d : List (Text × β)) (k : Text) (v : β) : List (Text × β) :=
  if k ∈ d.map (·.1) then d.map (fun e => if e.1 = k then (k, v) else e) else d ++ [(k, v)]

/-- 'root' -/
def rootWord : Text := ['r', 'o', 'o', 't']

/-- _unpack_write_areas: lines 110-128; `inc` is where the file of an area goes, `main` where the file of the form goes -/
def writeAreas {V F : Type} [DecidableEq F] (inc : Text → F) (main : F) : List (Text × Elems V) → (F → Option (Elems V)) → F → Option (Elems V)
  | [], fs => fs
  | (n, e) :: r, fs => writeAreas inc main r (fun f => if f = (if n = rootWord then main else inc n) then some e else fs f)

/-- OrganizerFormElem.unpack: lines 14-21; `e` is the content of the file, the result the file system afterwards -/
def unpack {V F : Type} [DecidableEq F] (names : V → List Text) (inc : Text → F) (main : F) (fs : F → Option (Elems V)) (e : Elems V) :
    Option (F → Option (Elems V)) :=
  match areasOut names e.tree [] e.data with
  | none => none
  | some (tree, data, areas) =>
    some (writeAreas inc main (assign (areas.foldl (fun d a => assign d a.1 a.2) []) rootWord ⟨tree, data, e.extra⟩) fs)

/-! ### the build -/

/-- `f'{append_path}/{p}' if append_path else p`: lines 182, 194, 198 -/
def under (append p : Text) : Text := if append = [] then p else append ++ '/' :: p

/-- the loop over the pages: lines 196-202; `path` is the path in the file, `path'` the one in the form -/
def addNames {V : Type} (append path path' : Text) : List Text → Dict V × Dict V → Dict V × Dict V
  | [], s => s
  | n :: r, (root, data) => match data (path ++ '/' :: n) with
    | none => addNames append path path' r (root, data)
    | some v => addNames append path path' r (put root (under append (path' ++ '/' :: n)) v, erase data (path ++ '/' :: n))

/-- the pages of a group: lines 192-202 -/
def addPages {V : Type} (names : V → List Text) (append path path' : Text) (s : Dict V × Dict V) : Dict V × Dict V :=
  match s.2 (path ++ pagesKey) with
  | none => s
  | some v => addNames append path path' (names v) (put s.1 (under append (path' ++ pagesKey)) v, erase s.2 (path ++ pagesKey))

/-- _append_area_data, the loop over the elements: lines 178-190 -/
def addLoop {V : Type} (names : V → List Text) (append : Text) : List Node → Text → Dict V × Dict V → Option (Dict V × Dict V)
  | [], _, s => some s
  | .apart _ _ _ :: _, _, _ => none
  | .mk name page _ child :: r, path, (root, data) =>
    match data (oldPath path page name) with
    | none => none
    | some v => match child with
      | some (c :: cs) =>
        match addLoop names append (c :: cs) (oldPath path page name)
            (put root (under append (oldPath path page name)) v, erase data (oldPath path page name)) with
        | none => none
        | some s => addLoop names append r path (addPages names append (oldPath path page name) (oldPath path page name) s)
      | _ => addLoop names append r path (put root (under append (oldPath path page name)) v, erase data (oldPath path page name))
termination_by l => sizeOf l

/-- _append_area_data for a whole area: lines 174-204.  The elements of an `includr_` area are looked up under `include_` (line 177), its own pages
are not (lines 192, 197) -/
def addArea {V : Type} (names : V → List Text) (tree : List Node) (name append : Text) (t : Bool) (s : Dict V × Dict V) : Option (Dict V × Dict V) :=
  let path' := if t then name else include' ++ name.drop 8
  (addLoop names append tree path' s).map (addPages names append name path')

/-- _pack_get_areas: lines 149-172; `read` gives the file of an area.  The entry of an area takes any `child` -/
def areasIn {V : Type} (names : V → List Text) (read : Text → Option (Elems V)) : List Node → Text → Dict V → Option (List Node × Dict V)
  | [], _, root => some ([], root)
  | .apart name page info :: r, path, root => match areaType name with
    | none => none
    | some t => match read (name.drop 8) with
      | none => none
      | some e => match addArea names e.tree name (oldPath path page []) t (root, e.data) with
        | none => none
        | some (root1, _) => match areasIn names read r path root1 with
          | none => none
          | some (r', root2) => some (.mk name page info (some e.tree) :: r', root2)
  | .mk name page info child :: r, path, root => match areaType name with
    | some t => match read (name.drop 8) with
      | none => none
      | some e => match addArea names e.tree name (oldPath path page []) t (root, e.data) with
        | none => none
        | some (root1, _) => match areasIn names read r path root1 with
          | none => none
          | some (r', root2) => some (.mk name page info (some e.tree) :: r', root2)
    | none => match child with
      | some (c :: cs) => match areasIn names read (c :: cs) (oldPath path page name) root with
        | none => none
        | some (l', root1) => match areasIn names read r path root1 with
          | none => none
          | some (r', root2) => some (.mk name page info (some l') :: r', root2)
      | child => match areasIn names read r path root with
        | none => none
        | some (r', root2) => some (.mk name page info child :: r', root2)
termination_by l => sizeOf l

/-- OrganizerFormElem.pack: lines 130-142; the result is the file that is built from -/
def pack {V F : Type} (names : V → List Text) (inc : Text → F) (main : F) (fs : F → Option (Elems V)) : Option (Elems V) :=
  match fs main with
  | none => none
  | some e => match areasIn names (fun n => fs (inc n)) e.tree [] e.data with
    | none => none
    | some (tree, data) => some ⟨tree, data, e.extra⟩

end V8.Areas
