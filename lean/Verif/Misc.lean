import Verif.Sort
import Verif.Text
import Verif.Decimal
import Verif.Brace
import Verif.Encoding
/-
Models of small decision functions of v8unpack: version check, choice of the handler, retries, batch mode, digests, extension of an
embedded file.
-/
namespace V8.Misc
open V8.Brace V8.Dec

/-! ### check_version: /repo/src/v8unpack/helper.py:331-340 -/

/-- exceptions of check_version -/
inductive VErr
  | assertion   -- AssertionError
  | value       -- ValueError of int()
deriving DecidableEq, Repr

/-- check_version: helper.py:331-340.  The four calls of int() are evaluated before the comparison. -/
def checkVersion (v8 src : Text) : Except VErr Unit :=
  match Str.split '.' v8 with
  | [a, b, _] =>
    match Str.split '.' src with
    | [a', b', _] =>
      match parseInt a, parseInt b, parseInt a', parseInt b' with
      | some x, some y, some x', some y' => if x = x' ∧ y = y' then .ok () else .error .assertion
      | _, _, _, _ => .error .value
    | _ => .error .assertion
  | _ => .error .assertion

/-! ### choice of the handler: /repo/src/v8unpack/decoder.py:12-57, 78-88, 152-158 -/

/-- classes of root objects: decoder.py:12-17 -/
inductive Cls
  | processor | config | extension
deriving DecidableEq, Repr

/-- available_types: decoder.py:12-17; keys in order -/
def available : List (Text × Cls) :=
  [("ExternalDataProcessor".toList, .processor), ("ExternalReport".toList, .processor), ("Configuration".toList, .config),
    ("ConfigurationExtension".toList, .extension)]

/-- `v[i]` of a list; IndexError and TypeError are `none` -/
def at' (i : Nat) : Val → Option Val
  | .list l => l[i]?
  | _ => none

/-- a string -/
def str' : Val → Option Text
  | .str s => some s
  | _ => none

/-- `len(v)` of a list; the strings that could stand at the same place are not modelled -/
def len' : Val → Option Nat
  | .list l => some l.length
  | _ => none

/-- `version[0][0]` -/
def verRow (version : Val) : Option Val := (at' 0 version).bind (at' 0)

/-- `int(version[0][0][0])` -/
def verNumber (row : Val) : Option Int := ((at' 0 row).bind str').bind parseInt

/-- obj_version from a row of the file `version`: lines 27-37; `none` is an exception -/
def objVersion (row : Val) : Option Text :=
  match len' row with
  | some 2 => some "802".toList
  | some 3 =>
    match ((at' 2 row).bind (at' 0)).bind str' with
    | some s =>
      let v := s.take 3
      if v.length = 3 then some v
      else if v = ['1'] ∨ v = ['2'] then some "802".toList else none
    | none => none
  | _ => none

/-- the part that looks at `configinfo`: lines 50-56 -/
def byConfiginfo (configinfo : Option Val) : Option (Cls × Text) :=
  match configinfo.bind (fun c => (at' 0 c).bind (at' 1)) with
  | none => none
  | some row =>
    match verNumber row with
    | none => none
    | some n =>
      if n ≥ 216 then
        if len' row = some 3 then
          match ((at' 2 row).bind (at' 0)).bind str' with
          | some s => if Str.starts "803".toList s then some (.extension, s) else none
          | none => none
        else none
      else none

/-- get_handler_by_version_file: lines 22-57.  `root` says whether the argument is given and not empty, `typeName` is
`MetaDataTypes(uuid).name`; the result is the class and `options['obj_version']`; `none` is an exception.  An empty `configinfo`
counts as not given. -/
def handler (typeName : Text → Option Text) (root : Bool) (version header : Val) (configinfo : Option Val) : Option (Cls × Text) :=
  if root then
    match verRow version with
    | none => none
    | some row =>
      match verNumber row with
      | none => none
      | some n =>
        if n ≥ 216 then
          match (((at' 0 header).bind (at' 3)).bind (at' 0)).bind str' with
          | none => none
          | some u =>
            match typeName u with
            | none => none
            | some ty =>
              match objVersion row with
              | none => none
              | some v => (available.lookup ty).map (fun c => (c, v))
        else if (at' 0 row) = some (.str "106".toList) then some (.processor, "801".toList)
        else byConfiginfo configinfo
  else byConfiginfo configinfo

/-- get_encoder: lines 152-158: the first type whose file is there -/
def getEncoder (isFile : Text → Bool) : Option Text := (available.map (·.1)).find? (fun t => isFile (t ++ ".json".toList))

/-- decode: lines 196-207: which of the containers of the directory is taken apart, and whether the dummy archive is made.
`listing` is os.listdir in the order the system gives; `none` is NotImplementedError. -/
def chooseContainer (listing : List Text) : Option (Text × Bool) :=
  if listing.length = 1 ∨ listing.length = 2 then listing.getLast?.map (fun c => (c, decide (listing.length = 2))) else none

/-! ### makedirs and txt_write: helper.py:84-99, 402-409 -/

/-- the outcome of one call of the operating system -/
inductive Out (E : Type) where
  | ok
  | perm
  | other (e : E)

/-- what makedirs does -/
inductive Res (E : Type) where
  | done
  | perm
  | other (e : E)

/-- `for i in range(n)`: attempt number `k` and the following ones: helper.py:403-409 -/
def attempts {E : Type} (os : Nat → Out E) : Nat → Nat → Res E × Nat
  | 0, k => (.perm, k)
  | n + 1, k => match os k with
    | .ok => (.done, k + 1)
    | .perm => attempts os n (k + 1)
    | .other e => (.other e, k + 1)

/-- makedirs: helper.py:402-409; the result and the number of calls made -/
def makedirs {E : Type} (os : Nat → Out E) : Res E × Nat := attempts os 3 0

/-- the outcome of one attempt to write a file: the content is written, or an exception leaves the file in some state -/
inductive WOut (E : Type) where
  | ok
  | perm (after : Option Bytes)
  | other (e : E) (after : Option Bytes)

/-- the loop of txt_write: helper.py:90-96: result (`true`: returned), the file afterwards, the number of attempts -/
def writeAttempts {E : Type} (os : Nat → WOut E) (data : Bytes) : Nat → Nat → Option Bytes → Bool × Option Bytes × Nat
  | 0, k, f => (false, f, k)
  | n + 1, k, f => match os k with
    | .ok => (true, some data, k + 1)
    | .perm f' => writeAttempts os data n (k + 1) f'
    | .other _ f' => (false, f', k + 1)

/-- txt_write: helper.py:84-99; `none` for the data is None; the first component is `true` if no exception is raised (every exception is
turned into ExtException at line 98) -/
def txtWrite {E : Type} (dirs : Nat → Out E) (os : Nat → WOut E) (data : Option Bytes) (before : Option Bytes) : Bool × Option Bytes × Nat :=
  match data with
  | none => (true, before, 0)
  | some d => match (makedirs dirs).1 with
    | .done => writeAttempts os d 3 0 before
    | _ => (false, before, 0)

/-! ### batch mode: /repo/src/v8unpack/v8unpack.py:124-183 -/

/-- one product of the file of products; `O` is the type of the options -/
structure Params (O : Type) where
  disable : Bool
  src : Option Text
  bin : Option Text
  temp : Option Text
  index : Option Text
  options : Option O

/-- a call of `build` or `extract` made by the batch functions -/
structure Job (O : Type) where
  product : Text
  src : Text
  bin : Text
  temp : Option Text
  index : Option Text
  options : Option O

/-- the choice of the products: lines 126-129; `none` is KeyError.  The empty product code is as good as none. -/
def selectProducts {O : Type} (products : List (Text × Params O)) (code : Option Text) : Option (List (Text × Params O)) :=
  match code with
  | none => some products
  | some [] => some products
  | some c => (products.lookup c).map (fun q => [(c, { q with disable := false })])

/-- the loop: lines 130-141; `opts` says what the options of a call are (build_all adds the product: lines 134-135); `run` is one call and
tells whether it succeeded.  The result: the calls made, and whether the whole batch succeeded. -/
def runProducts {O : Type} (opts : Text → Option O → Option O) (run : Job O → Bool) : List (Text × Params O) → List (Job O) × Bool
  | [] => ([], true)
  | (name, q) :: r =>
    if q.disable then runProducts opts run r
    else match q.src, q.bin with
      | some s, some b =>
        let j : Job O := ⟨name, s, b, q.temp, q.index, opts name q.options⟩
        if run j then let (js, ok) := runProducts opts run r; (j :: js, ok) else ([j], false)
      | _, _ => ([], false)

/-- build_all, extract_all: lines 124-164 -/
def runAll {O : Type} (opts : Text → Option O → Option O) (run : Job O → Bool) (products : List (Text × Params O)) (code : Option Text) :
    List (Job O) × Bool :=
  match selectProducts products code with
  | none => ([], false)
  | some ps => runProducts opts run ps

/-! ### digests: /repo/src/v8unpack/container_writer.py:52-81 -/

def configinfoName : Text := "configinfo".toList

/-- the list `versions`: lines 53-67; `digest` is `b64encode(sha1(·).digest())`; `files` are the stored files in the order the system
lists them -/
def versionsList (digest : Bytes → Text) (files : List (Text × Bytes)) : List Val :=
  let kept := (sortBy Prod.fst files).filter (fun f => decide (f.1 ≠ configinfoName))
  Val.str (showNat (2 * kept.length / 2)) :: kept.flatMap (fun f => [Val.str ('"' :: f.1 ++ ['"']), Val.str (digest f.2)])

/-- `data.replace(old, new)` for a non-empty `old` -/
def replaceAll (old new : Text) : Nat → Text → Text
  | 0, t => t
  | _ + 1, [] => []
  | n + 1, c :: t => if Str.starts old (c :: t) then new ++ replaceAll old new n ((c :: t).drop old.length) else c :: replaceAll old new n t

/-- the placeholder: line 76 -/
def placeholder : Text := "{____versions____}".toList

/-- `file.seek(0); file.write(new)` on a file opened for update: what is longer stays: lines 77-78 -/
def overwrite (old new : Text) : Text := new ++ old.drop new.length

/-- calc_sha1: lines 52-81: the text of the file configinfo afterwards; `none` if there is no such file (line 66) -/
def calcSha1 (digest : Bytes → Text) (files : List (Text × Bytes)) (text : Text) : Option Text :=
  if files.any (fun f => decide (f.1 = configinfoName)) then
    let v := encRoot [versionsList digest files]
    some (overwrite text (replaceAll placeholder v text.length text))
  else none

/-! ### extension from a comment: helper.py:321-328 -/

/-- get_extension_from_comment: helper.py:321-328; `alnum` is the Unicode test of one character of `str.isalnum` -/
def extension (alnum : Char → Bool) (comment : Text) : Text :=
  let c := Str.strip comment
  if c = [] then "bin".toList
  else match (Str.split ' ' c).getLast? with
    | some e => if e.length < 6 ∧ e ≠ [] ∧ e.all alnum then e else "bin".toList
    | none => "bin".toList

end V8.Misc
