import Verif.Encode
/-
What a user expects of the assembling of an object tree: stated on the tree alone, without rounds, pools, stacks or indexes.
-/
namespace V8.Encode

/-- the entries of the objects of one parent, each computed from the entries of its own nested objects (bottom up); objects
without description files give nothing -/
def entries (enc : Text → Text → Text → List Entry → Text) : Forest → List Entry
  | .nil => []
  | .cons ty nm uu p kids rest =>
    (if p then [⟨ty, uu, nm, enc ty nm uu (entries enc kids)⟩] else []) ++ entries enc rest

/-- all objects of the tree that have description files (nothing below an object without), each with its own subtree -/
def objects (parent : Id) : Forest → List Task
  | .nil => []
  | .cons ty nm uu p kids rest =>
    (if p then ⟨parent, ty, nm, uu, p, kids⟩ :: objects (parent ++ [ty, nm]) kids else []) ++ objects parent rest

/-- type and folder name of the objects of one parent -/
def names : Forest → List (Text × Text)
  | .nil => []
  | .cons ty nm _ _ _ rest => (ty, nm) :: names rest

/-- folder names of one parent and type are distinct, at every level -/
def DistinctNames : Forest → Prop
  | .nil => True
  | .cons ty nm _ _ kids rest => (ty, nm) ∉ names rest ∧ DistinctNames kids ∧ DistinctNames rest

/-- an object with nested object folders has at least one nested object that can be read -/
def NoEmptyParents : Forest → Prop
  | .nil => True
  | .cons _ _ _ p kids rest =>
    (p = true → kids = .nil ∨ objects [] kids ≠ []) ∧ NoEmptyParents kids ∧ NoEmptyParents rest

/-- encoding an object gives the same data in whatever order its nested objects are handed to it -/
def OrderFree (enc : Text → Text → Text → List Entry → Text) : Forest → Prop
  | .nil => True
  | .cons ty nm uu _ kids rest =>
    (∀ es, es.Perm (entries enc kids) → enc ty nm uu es = enc ty nm uu (entries enc kids)) ∧
      OrderFree enc kids ∧ OrderFree enc rest

end V8.Encode
