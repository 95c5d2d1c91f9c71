import Verif.Code
/-
Specification vocabulary for module splitting: a module text as a forest of regions and include areas.
-/
namespace V8.Code
open V8.Str

/-- a module: lines, ordinary regions and include areas, each with its opening and closing line -/
inductive Node
  | line (l : Text)
  | region (a : Text) (body : List Node) (z : Text)
  | area (a : Text) (body : List Node) (z : Text)

mutual
/-- the lines of the module text -/
def Node.lines : Node → List Text
  | .line l => [l]
  | .region a b z => a :: nodesLines b ++ [z]
  | .area a b z => a :: nodesLines b ++ [z]
def nodesLines : List Node → List Text
  | [] => []
  | n :: r => n.lines ++ nodesLines r
end

/-- the module text -/
def text (m : List Node) : Text := (nodesLines m).flatten

mutual
/-- the lines that stay in the file itself: everything but the insides of its include areas -/
def Node.own : Node → List Text
  | .line l => [dynStrip l]
  | .region a b z => dynStrip a :: nodesOwn b ++ [dynStrip z]
  | .area a _ z => [dynStrip a, dynStrip z]
def nodesOwn : List Node → List Text
  | [] => []
  | n :: r => n.own ++ nodesOwn r
end

mutual
/-- the include areas of the module at all levels: name, type and the lines of its file -/
def Node.areas : Node → List (Text × AreaType × List Text)
  | .line _ => []
  | .region _ b _ => nodesAreas b
  | .area a b _ => match kind a with
    | .area typ key _ => (key, typ, nodesOwn b) :: nodesAreas b
    | _ => nodesAreas b
def nodesAreas : List Node → List (Text × AreaType × List Text)
  | [] => []
  | n :: r => n.areas ++ nodesAreas r
end

def marker : Text := "//DynamicDirective".toList

/-- a line that can be restored when the directive `d` is in force: it has no dynamic directive marker, or it is
exactly that directive followed by the marker -/
def LineOK (d : Option Text) (l : Text) : Prop :=
  ¬ marker <:+: l ∨
  ∃ x tail, d = some x ∧ l = x ++ ' ' :: (marker ++ tail) ∧ '&' ∈ x ∧ ¬ marker <:+: tail

mutual
/-- a well-formed module: balanced, directives restorable, and names that are found again
(`ok nested name` tells which names are allowed at top level and inside other areas) -/
def WF (ok : Bool → Text → Prop) (nested : Bool) (d : Option Text) : Node → Prop
  | .line l => kind l = .other ∧ LineOK d l
  | .region a b z => kind a = .region ∧ kind z = .close ∧ ¬ marker <:+: a ∧ ¬ marker <:+: z ∧ WFs ok nested d b
  | .area a b z => kind z = .close ∧ ¬ marker <:+: a ∧ ¬ marker <:+: z ∧
      ∃ typ key d', kind a = .area typ key d' ∧ key ≠ [] ∧ ok nested key ∧ WFs ok true (d'.or d) b
def WFs (ok : Bool → Text → Prop) (nested : Bool) (d : Option Text) : List Node → Prop
  | [] => True
  | n :: r => WF ok nested d n ∧ WFs ok nested d r
end

/-- the file of an area can be found from any file: the name has several parts, or a version is given -/
def Anywhere (e : Env) (key : Text) : Prop := e.descent = true ∨ '_' ∈ e.name key

/-- names allowed: inside another area the name must be found from anywhere; at top level also when the module file
stays in the folder of the module -/
def NameOK (e : Env) (modDir : Dir) (rootFile : Dir × Text) (nested : Bool) (key : Text) : Prop :=
  Anywhere e key ∨ (nested = false ∧ rootFile.1 = modDir)

/-- the files written by splitting -/
def written (e : Env) (modDir : Dir) (m : List Node) : List (Dir × Text) :=
  ((nodesAreas m).filter (fun p => p.2.1 = .incl)).map (fun p => parse e p.1 modDir)

/-- the file does not end in the middle of a line except at its end -/
def ProperLines (ls : List Text) : Prop := Brace.lines ls.flatten = ls

structure GoodModule (e : Env) (modDir : Dir) (rootFile : Dir × Text) (fs : FS) (m : List Node) : Prop where
  wf : WFs (NameOK e modDir rootFile) false none m
  proper : ProperLines (nodesLines m)
  /-- distinct names, none of them the reserved `root` -/
  names : ("root".toList :: (nodesAreas m).map (·.1)).Nodup
  /-- distinct files -/
  files : (rootFile :: written e modDir m).Nodup
  /-- read-only areas: their file exists with the same text, and is not one of the written files -/
  readonly : ∀ p ∈ nodesAreas m, p.2.1 = .incr →
    fs (parse e p.1 modDir) = some p.2.2.flatten ∧ parse e p.1 modDir ∉ rootFile :: written e modDir m

end V8.Code
