import Verif.Text
import Mathlib.Data.List.Perm.Basic
/-
Model of the parallel parts of v8unpack: /repo/src/v8unpack/helper.py:192-266 (run_in_pool, run_in_pool_encode_include) and the
loops of /repo/src/v8unpack/decoder.py:79-151 (Decoder.decode, Decoder.encode) with the two passes of
/repo/src/v8unpack/MetaDataObject/__init__.py:116-173 (MetaDataObject.encode).

A pool hands out results in any order (imap_unordered): a round may deliver any permutation.
-/
namespace V8.Encode

/-! ### run_in_pool -/

/-- what a worker gives back: its result list, or an exception (an ExtException or another one) -/
inductive Outcome (α : Type) where
  | ok (r : List α)
  | ext (msg : Text)
  | other (msg : Text)
deriving DecidableEq

/-- outcome of a whole run -/
inductive Run (α : Type) where
  | done (r : List α)
  | ext (msg : Text)
  | other (msg : Text)
deriving DecidableEq

/-- run_in_pool with need_result: helper.py:192-207; the outcomes in the order they are delivered.  An ExtException is wrapped
into another one, other exceptions pass. -/
def runInPool {α : Type} : List (Outcome α) → List α → Run α
  | [], acc => .done acc
  | .ok r :: t, acc => runInPool t (acc ++ r)
  | .ext m :: _, _ => .ext m
  | .other m :: _, _ => .other m

/-! ### the object tree -/

/-- nested objects of one parent: type, folder name, identifier, whether its description files are there, its own nested
objects, and the remaining siblings -/
inductive Forest where
  | nil
  | cons (ty nm uu : Text) (present : Bool) (kids rest : Forest)
deriving DecidableEq

/-- identification of an object: the parts of `parent/type/name` (MetaDataObject/__init__.py:141; folder names have no slash) -/
abbrev Id := List Text

/-- one task: MetaObject/__init__.py:211-219 -/
structure Task where
  parent : Id
  ty : Text
  nm : Text
  uu : Text
  present : Bool
  kids : Forest

/-- `f"{parent_id}/{type}/{name}"`: MetaDataObject/__init__.py:141, decoder.py:142 -/
def Task.id (t : Task) : Id := t.parent ++ [t.ty, t.nm]

/-- encode_includes: the tasks for the nested objects: MetaObject/__init__.py:191-219 -/
def tasksOf (parent : Id) : Forest → List Task
  | .nil => []
  | .cons ty nm uu p kids rest => ⟨parent, ty, nm, uu, p, kids⟩ :: tasksOf parent rest

/-- what a parent receives for a nested object: (type,) uuid, name, data: helper.py:243-253 -/
structure Entry where
  ty : Text
  uu : Text
  nm : Text
  data : Text
deriving DecidableEq

/-- a task handed to the pool: the first time without the nested objects, the second time with them -/
inductive Work where
  | first (t : Task)
  | second (t : Task) (entries : List Entry)

/-- what a worker returns: MetaDataObject/__init__.py:116-173 -/
inductive Res where
  /-- the dictionary of an encoded object: lines 158-165 -/
  | encoded (t : Task) (entries : List Entry) (e : Entry)
  /-- the object has nested ones, they must be encoded first: lines 143-147 -/
  | later (t : Task) (children : List Task)
  /-- (None, None): the description files are missing: lines 124-128 -/
  | absent

/-- one worker call (Decoder.encode_include): `enc` stands for fill_header_includes, encode_object and write_encode_object, i.e.
for everything that is computed from the object and the nested objects handed to it -/
def work (enc : Text → Text → Text → List Entry → Text) : Work → Res
  | .first t =>
    if t.present then
      match tasksOf t.id t.kids with
      | [] => .encoded t [] ⟨t.ty, t.uu, t.nm, enc t.ty t.nm t.uu []⟩
      | c :: r => .later t (c :: r)
    else .absent
  | .second t es =>
    if t.present then
      (if es = [] then
        match tasksOf t.id t.kids with
        | [] => .encoded t [] ⟨t.ty, t.uu, t.nm, enc t.ty t.nm t.uu []⟩
        | c :: r => .later t (c :: r)
      else .encoded t es ⟨t.ty, t.uu, t.nm, enc t.ty t.nm t.uu es⟩)
    else .absent

/-- state of the loop of Decoder.encode (decoder.py:122-146).  `index` is include_index, kept flat: the parent an entry belongs to and the
entry, in order of arrival (the code groups them by parent and type).  `log`: the objects encoded so far, with the nested objects
they were given. -/
structure State where
  pending : List Work
  stack : List (List Task)
  index : List (Id × Entry)
  log : List (Task × List Entry)

/-- entries delivered by a round: helper.py:239-253 -/
def entriesIn (rs : List Res) : List (Id × Entry) :=
  rs.filterMap (fun | .encoded t _ e => some (t.parent, e) | _ => none)

/-- objects put off by a round: helper.py:237-238 -/
def laterIn (rs : List Res) : List Task :=
  rs.filterMap (fun | .later t _ => some t | _ => none)

/-- new tasks of a round: helper.py:235-236 -/
def childrenIn (rs : List Res) : List Task :=
  rs.flatMap (fun | .later _ cs => cs | _ => [])

/-- objects encoded in a round -/
def loggedIn (rs : List Res) : List (Task × List Entry) :=
  rs.filterMap (fun | .encoded t es _ => some (t, es) | _ => none)

/-- `include_index.pop(id)`: the entries of `id` and the rest; `none` is the KeyError -/
def popId (index : List (Id × Entry)) (id : Id) : Option (List Entry × List (Id × Entry)) :=
  match (index.filter (fun p => p.1 = id)).map (·.2) with
  | [] => none
  | e :: r => some (e :: r, index.filter (fun p => p.1 ≠ id))

/-- decoder.py:139-143: hand the collected nested objects to a group of put-off objects -/
def popGroup : List (Id × Entry) → List Task → Option (List Work × List (Id × Entry))
  | index, [] => some ([], index)
  | index, t :: r => (popId index t.id).bind (fun (es, rest) => (popGroup rest r).map (fun (ws, i) => (.second t es :: ws, i)))

/-- decoder.py:137-144: no tasks are left, so the last group of put-off objects is taken from the stack and gets its nested
objects; `none` is the KeyError -/
def handOut (stack : List (List Task)) (index : List (Id × Entry)) (log : List (Task × List Entry)) : Option State :=
  match stack with
  | [] => some ⟨[], [], index, log⟩
  | g :: rest => (popGroup index g).map (fun (ws, i) => ⟨ws, rest, i, log⟩)

/-- one iteration of the loop: decoder.py:124-145 with the results delivered in the order `rs`; `none` is the KeyError.  The
dictionaries are merged by update_dict, which extends the lists of entries (helper.py:427-454). -/
def advance (s : State) (rs : List Res) : Option State :=
  let index := s.index ++ entriesIn rs
  let stack := if laterIn rs = [] then s.stack else laterIn rs :: s.stack
  let log := s.log ++ loggedIn rs
  match childrenIn rs with
  | [] => handOut stack index log
  | c :: cs => some ⟨(c :: cs).map .first, stack, index, log⟩

/-- the loop may continue: decoder.py:125 -/
def State.running (s : State) : Prop := s.pending ≠ [] ∨ s.stack ≠ []

/-- every order in which the pool may deliver the results of a round, and what then happens (`none`: the build fails) -/
def Round (enc : Text → Text → Text → List Entry → Text) (s : State) (o : Option State) : Prop :=
  s.running ∧ ∃ rs : List Res, rs.Perm (s.pending.map (work enc)) ∧ o = advance s rs

/-- start of the loop: decoder.py:117-122 -/
def initState (root : Id) (f : Forest) : State := ⟨(tasksOf root f).map .first, [], [], []⟩

/-- Inevitably: every run from `o`, whatever orders the pool delivers, comes after finitely many rounds to a state that
satisfies `Q` -/
inductive Inevitably (enc : Text → Text → Text → List Entry → Text) (Q : Option State → Prop) : Option State → Prop where
  | here {o} : Q o → Inevitably enc Q o
  | step {s} : (∃ o, Round enc s o) → (∀ o, Round enc s o → Inevitably enc Q o) → Inevitably enc Q (some s)

end V8.Encode
