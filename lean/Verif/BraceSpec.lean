import Verif.Brace
/-
Specification vocabulary for brace files: which trees are "well formed 1C values".
Independent of the parser; it only talks about the values.
-/
namespace V8.Brace

/-- a 1C string literal: the text in quotes with its quotes doubled -/
def quoted (s : Text) : Text := '"' :: s.flatMap (fun c => if c = '"' then ['"', '"'] else [c]) ++ ['"']

/-- the serializer takes this text for base64 (lines 334-341) and would wrap it -/
def TakenForBase64 (e : Text) : Prop := 64 < e.length ∧ b64decodes e = true

instance (e : Text) : Decidable (TakenForBase64 e) := by unfold TakenForBase64; infer_instance

/-- an atom: a string literal of any text (without carriage returns), or a raw token (number, uuid, ...), and not
mistaken for base64 -/
def Atom (e : Text) : Prop :=
  ((∃ s, '\r' ∉ s ∧ e = quoted s) ∨
   (e.head? ≠ some '#' ∧ ∀ c ∈ e, c ≠ ',' ∧ c ≠ '}' ∧ c ≠ '"' ∧ c ≠ '\n' ∧ c ≠ '\r')) ∧
  ¬ TakenForBase64 e

/-- a raw base64 token that is too long for one line -/
def LongB64 (e : Text) : Prop := TakenForBase64 e ∧ ∀ c ∈ e, isB64 c ∨ c = '='

/-- an embedded binary: `#base64:` (stored over several lines: at least 72 characters) or `##base64:` (stored on one line) -/
def Blob (e : Text) : Prop :=
  ∃ w : Text, (∀ c ∈ w, c ≠ '}' ∧ c ≠ '\n' ∧ c ≠ '\r') ∧
    (e = "##base64:".toList ++ w ∨ (e = "#base64:".toList ++ w ∧ 72 ≤ e.length))

def Val.isList : Val → Bool
  | .list _ => true
  | _ => false

mutual
/-- an element of a list: `prev` tells whether the element before it is a list (an empty element there is `none`,
anywhere else the empty string), `last` whether it is the last one -/
def WFVal (prev last : Bool) : Val → Prop
  | .none => prev = true
  | .str e => (e = [] → prev = false) ∧ (Atom e ∨ (last = true ∧ LongB64 e))
  | .list l => (∃ e, l = [.str e] ∧ Blob e) ∨ (l ≠ [] ∧ WFElems false l)
def WFElems (prev : Bool) : List Val → Prop
  | [] => True
  | v :: r => WFVal prev r.isEmpty v ∧ WFElems v.isList r
end

/-- a root list -/
def WFRoot (l : List Val) : Prop := WFVal false true (.list l)

mutual
/-- the tree contains an embedded binary -/
def HasBlob : Val → Prop
  | .none => False
  | .str _ => False
  | .list l => (∃ e, l = [.str e] ∧ e.head? = some '#') ∨ HasBlobs l
def HasBlobs : List Val → Prop
  | [] => False
  | v :: r => HasBlob v ∨ HasBlobs r
end

/-- the file is not of the shape `{1,{...#base64...}...}` which the parser reports as one big binary -/
def NotBigBinary : List (List Val) → Prop
  | (.str ['1'] :: v :: _) :: _ => ¬ HasBlob v
  | _ => True

/-- a well-formed brace file content: at least one root list -/
def WFFile (d : List (List Val)) : Prop := (∀ l ∈ d, WFRoot l) ∧ NotBigBinary d

end V8.Brace
