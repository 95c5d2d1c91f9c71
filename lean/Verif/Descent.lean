import Verif.Decimal
/-
Model of the file versions (descents) of v8unpack:
/repo/src/v8unpack/helper.py:343-399 (get_descent_file_name, get_near_descent_file_name, remove_descent_from_filename),
/repo/src/v8unpack/organizer_file_ce.py:9-61 and the parts of /repo/src/v8unpack/organizer_file.py that use them.
-/
namespace V8.Descent
open V8.Str V8.Dec

/-- one folder, as os.listdir shows it (in any order): name and content, `none` for a sub-folder -/
abbrev Folder := List (Text × Option Text)

/-- os.path.isfile -/
def isFile (dir : Folder) (name : Text) : Bool := dir.any (fun p => p.1 = name ∧ p.2.isSome)

/-- content of a file -/
def read (dir : Folder) (name : Text) : Option Text := (dir.find? (fun p => p.1 = name)).bind (·.2)

/-- writing a file: a new one appears at the end of the listing; `none` when there is a sub-folder of that name -/
def write (dir : Folder) (name content : Text) : Option Folder :=
  if dir.any (fun p => p.1 = name ∧ p.2 = none) then none
  else if dir.any (fun p => p.1 = name) then some (dir.map (fun p => if p.1 = name then (name, some content) else p))
  else some (dir ++ [(name, some content)])

/-- `'.'.join(name[0:-1])`: helper.py:352-353 -/
def stem (file : Text) : Text := join '.' (split '.' file).dropLast
/-- `name[-1]`: helper.py:354 -/
def ext (file : Text) : Text := (split '.' file).getLast?.getD []

/-- get_descent_file_name: helper.py:343-348 (`list.insert(-1, x)` puts x before the last element) -/
def descentName (file : Text) (d : Nat) : Text :=
  if d = 0 then file
  else join '.' ((split '.' file).dropLast ++ [showNat d, ext file])

/-- the versions found in the listing: helper.py:363-378 (an entry whose version part is no number is passed over) -/
def versionsOf (dir : Folder) (file : Text) : List Int :=
  dir.filterMap (fun p =>
    let parts := split '.' p.1
    if starts (stem file) p.1 && ends (ext file) p.1 then
      if p.1 = file then none
      else if parts.length - 1 ≠ (split '.' file).length then none
      else if p.2.isSome then parseInt (parts.dropLast.getLast?.getD []) else none
    else none)

/-- `is_without_descent`: helper.py:364-368 -/
def hasPlain (dir : Folder) (file : Text) : Bool :=
  dir.any (fun p => starts (stem file) p.1 && ends (ext file) p.1 && p.1 = file)

/-- `key=lambda x: 0 if x > descent else x`: helper.py:383 -/
def sortKey (d : Nat) (x : Int) : Int := if x > (d : Int) then 0 else x

/-- first element of `sorted(descents, reverse=True, key=...)`: the first one with the greatest key (Python's sort is
stable also with reverse=True): helper.py:383 -/
def bestOf (d : Nat) : List Int → Option Int
  | [] => none
  | x :: r => match bestOf d r with
    | none => some x
    | some y => if sortKey d y > sortKey d x then some y else some x

/-- get_near_descent_file_name: helper.py:351-387; `none` is the answer ('', '') -/
def near (dir : Folder) (file : Text) (d : Nat) : Option Text :=
  match bestOf d (versionsOf dir file) with
  | none => if hasPlain dir file then some file else none
  | some x =>
    if x > (d : Int) then (if hasPlain dir file then some file else none)
    else some (stem file ++ '.' :: showInt x ++ '.' :: ext file)

/-- remove_descent_from_filename: helper.py:390-399; `none` is Python's None -/
def removeDescent (file : Text) : Option Text :=
  let parts := split '.' file
  if parts.length < 3 then some file
  else
    match parseInt (parts.dropLast.getLast?.getD []) with
    | none => some file
    | some n =>
      if showInt n = parts.dropLast.getLast?.getD [] then some (join '.' (parts.dropLast.dropLast ++ [ext file]))
      else none

/-- saving one file at version `d` (organizer_file_ce.py:9-24 with organizer_file.py:65-76, 95-103): `none` when the
comparison opens a file that does not exist -/
def save (dir : Folder) (file : Text) (d : Nat) (content : Text) : Option Folder :=
  if isFile dir (descentName file d) then write dir (descentName file d) content
  else match near dir file d with
    | none => write dir (descentName file d) content
    | some n => match read dir n with
      | none => none
      | some old => if old = content then some dir else write dir (descentName file d) content

/-- the file used when building at version `d` (organizer_file_ce.py:26-31 and the following copy): `none` is an error -/
def load (dir : Folder) (file : Text) (d : Nat) : Option Text :=
  match near dir file d with
  | none => none
  | some n => read dir n

/-- list_descent_dir: organizer_file_ce.py:33-61, the names of files (sub-folders are listed as they are) -/
def listNames (dir : Folder) : List (Option Text) :=
  (dir.filter (fun p => p.2.isSome)).foldl (fun acc p =>
    let e := removeDescent p.1
    if e ∈ acc then acc else acc ++ [e]) []

/-- packing the files of one folder (organizer_file.py:257-283 for OrganizerFileCE): every listed name with the content
that is used for it; an error for one name is an error for the build -/
def packFolder (dir : Folder) (d : Nat) : Option (List (Text × Text)) :=
  (listNames dir).mapM (fun e => match e with
    | none => none
    | some n => (load dir n d).map (fun c => (n, c)))

/-- OrganizerFile.unpack: organizer_file.py:14-27 for one folder of the destination (helper.clear_dir, line 20, comes
first, whatever the version); `files` are the new contents -/
def unpackFolder (_dir : Folder) (files : List (Text × Text)) (d : Nat) : Option Folder :=
  files.foldlM (fun dir f => save dir f.1 d f.2) []

end V8.Descent
