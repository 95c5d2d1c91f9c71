import Verif.Props.Cli
/-
C78: concrete cases.
-/
namespace V8.Cli.Ex
open V8.Str V8.Top V8.Cli

/-- two products and a disabled one; the first has the base version in its options -/
def products : List (Text × V8.Misc.Params Opts) :=
  [("a".toList, ⟨false, some "s".toList, some "x.cf".toList, some "t".toList, none, some { descent := some 0 }⟩),
   ("b".toList, ⟨true, some "s".toList, some "gone.cf".toList, some "t".toList, none, none⟩),
   ("c".toList, ⟨false, some "d".toList, some "gone.cf".toList, some "t".toList, none, none⟩)]

/-- the stages of the example of C73 -/
def parts : Parts := ⟨["f".toList], fun _ _ => some none, fun _ _ => exExtract, fun _ _ => exBuild, fun _ _ _ fs => (fs, true), fun _ _ => some products⟩

/-- the files: sources and a product -/
def fs0 : Fs := fun p =>
  if p = ["w".toList, "s".toList, "m".toList] then some [1, 2]
  else if p = ["w".toList, "x.cf".toList] then some [9] else none

def cwd0 : Place := ["w".toList]

/-- `-E x.cf s --temp t --prefix p --auto_include`: relative paths, and options that all reach the function -/
def f1 : Flags := { temp := some "t".toList, pre := some "p".toList, auto := true, descent := some 4100200 }

example : NotEmpty f1 ∧ given f1 = ⟨some "p".toList, true, some 4100200, none, none⟩ := by unfold NotEmpty; decide

example : (main parts cwd0 (.E "x.cf".toList "s".toList) f1 fs0).2 = 0 ∧
    (main parts cwd0 (.E "x.cf".toList "s".toList) f1 fs0).1 ["w".toList, "s".toList, "m".toList] = some [9] ∧
    (main parts cwd0 (.E "x.cf".toList "/w/s".toList) f1 fs0).1 ["w".toList, "s".toList, "m".toList] = some [9] := by decide +kernel

/-- `-B s y.cf` -/
example : (main parts cwd0 (.B "s".toList "y.cf".toList) { temp := some "t".toList } fs0).2 = 0 ∧
    (main parts cwd0 (.B "s".toList "y.cf".toList) { temp := some "t".toList } fs0).1 ["w".toList, "y.cf".toList] = some [1, 2] := by decide +kernel

theorem plain_w : ∀ c ∈ cwd0, V8.Path.Plain c := by
  intro c hc
  cases List.mem_singleton.mp hc
  exact ⟨by decide, by decide, by decide, by decide⟩

/-- the hypotheses of C78_descent_zero_neg are met: a missing file, sources, `--descent 0` -/
example : (main parts cwd0 (.E "gone.cf".toList "s".toList) { descent := some 0 } fs0).2 = 1 ∧
    (main parts cwd0 (.E "gone.cf".toList "s".toList) { descent := some 0 } fs0).1 ["w".toList, "s".toList, "m".toList] = none ∧
    (apiExtract parts cwd0 (absolute cwd0 "gone.cf".toList) (absolute cwd0 "s".toList) none none (given { descent := some 0 }) fs0).1
      ["w".toList, "s".toList, "m".toList] = some [1, 2] :=
  C78_descent_zero_neg parts cwd0 { descent := some 0 } "gone.cf".toList "s".toList fs0 (fun _ => False) (fun _ _ => exExtract_ok) ⟨none, rfl, by decide⟩ rfl rfl
    (by decide +kernel) (by decide +kernel) (by unfold Under; decide +kernel) _ (by unfold Under; decide +kernel) (by decide +kernel) (by unfold Under; decide +kernel)

/-- with another version everything stays -/
example : (main parts cwd0 (.E "gone.cf".toList "s".toList) { descent := some 41 } fs0).2 = 1 ∧
    (main parts cwd0 (.E "gone.cf".toList "s".toList) { descent := some 41 } fs0).1 ["w".toList, "s".toList, "m".toList] = some [1, 2] :=
  C78_version_kept parts cwd0 { descent := some 41 } "gone.cf".toList "s".toList fs0 (fun _ => False) (fun _ _ => exExtract_ok) ⟨none, rfl, by decide⟩ 41 rfl (by decide) rfl
    (by decide +kernel) (by unfold Under; decide +kernel) _ (by unfold Under; decide +kernel)

/-- the batch: the first product is extracted, the disabled one is left out, the third fails -/
example : (main parts cwd0 (.EA "p.json".toList) {} fs0).2 = 1 ∧
    (main parts cwd0 (.EA "p.json".toList) {} fs0).1 ["w".toList, "s".toList, "m".toList] = some [9] := by decide +kernel

/-- one product of the batch, chosen with `--index` -/
example : (parts.load "p.json".toList fs0).bind (fun l => V8.Misc.selectProducts l (some "a".toList)) = some (products.take 1) ∧
    (main parts cwd0 (.EA "p.json".toList) { index := some "a".toList } fs0).2 = 0 := ⟨rfl, by decide +kernel⟩

/-- the indexes: the products have none, so `-IA` ends with the first -/
example : (main parts cwd0 (.IA "p.json".toList) {} fs0).2 = 1 ∧ (main parts cwd0 (.I "s".toList) { index := some "i".toList, core := some "core".toList } fs0).2 = 0 := by decide +kernel

end V8.Cli.Ex
