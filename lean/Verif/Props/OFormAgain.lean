import Verif.OFormAgainForm
import Verif.Props.OFormAuto
/-
C70: the second round of an ordinary form with the option auto_include.  Model: Verif/OFormAuto.lean; specification: Verif/OFormRenum.lean.
-/
namespace V8.OAuto
open V8.Brace V8.Dec
open V8.Form (count countAt dictGet calcOffset truthy)
open V8.OForm (TidyPages get2 fromEnd panelKind Src inside s q page panelData formOf)

/-- **C70** (partial): under the conditions of C69, what the first build makes of an ordinary form stays as it is.  `out` is what the first round (extraction,
build) gives; extracting `out` succeeds, gives the same tree of pages and elements, the same attributes and the same paths, and building from that
gives `out` again, to the last entry.  So sources kept under version control do not change with every round. -/
theorem C70_second_round_partial (ni depth : Nat) (raw raw' : List Val) (src : Src) (h : formOut ni depth raw = some (raw', src))
    (main : ∀ panel, get2 raw 1 2 = some (.list panel) → (∀ pr, get2 panel 1 1 = some (.list pr) → TidyPages pr) ∧
      ∀ er, panel[2]? = some (.list er) → TidyList er ∧ ∀ r ∈ allElems depth er, TidyElem r)
    (names : ∀ t ∈ OForm.allNames src.tree, t ≠ []) (paths : (src.data.map (·.1)).Nodup)
    (includr : ∀ e ∈ src.data, insideRef e.1 = inside e.1) (attrs : TidyAttrs src.attrs) (links : ∃ ls, get2 raw 2 3 = some (.list ls)) :
    ∃ out out' src', formIn depth raw' src = some out ∧ formOut ni depth out = some (out', src') ∧ formIn depth out' src' = some out ∧
      src'.tree = src.tree ∧ src'.attrs = src.attrs ∧ (src'.data.map (·.1)).Perm (src.data.map (·.1)) := by
  obtain ⟨out, h1, h2⟩ := C69_renumbered_partial ni depth raw raw' src h main names paths includr attrs links
  obtain ⟨⟨out', src', g1, g2, g3, g4⟩, g5, g6, g7⟩ := form_again ni depth raw raw' src h main names paths links out h1
  have hfix := form_fix depth raw out h1 (by obtain ⟨ls, hls⟩ := links; exact ⟨_, hls⟩) g7
  obtain ⟨out2, k1, k2⟩ := C69_renumbered_partial ni depth out out' src' g1 g5 (by rw [g3]; exact names) (g4.nodup_iff.mpr paths)
    (by
      intro e he
      have : e.1 ∈ src.data.map (·.1) := g4.subset (List.mem_map.mpr ⟨e, he, rfl⟩)
      obtain ⟨e2, he2, hee⟩ := List.mem_map.mp this
      rw [← hee]
      exact includr e2 he2)
    (by rw [g2]; exact attrs) g6
  rw [hfix] at k1
  replace k1 := Option.some.inj k1
  subst k1
  exact ⟨out, out', src', h2, g1, k2, g3, g2, g4⟩

/-- numbering is done once: for every form whose elements have their place behind kind and number, numbering what has been numbered changes nothing -/
theorem C70_numbered_once (depth : Nat) (raw out : List Val) (h : renumForm (attrOf raw) depth raw = some out) (hl : ∃ v, get2 raw 2 3 = some v)
    (hA : ∀ panel er, get2 raw 1 2 = some (.list panel) → panel[2]? = some (.list er) → ∀ r ∈ allElems depth er, Apart r) :
    renumForm (attrOf out) depth out = some out := form_fix depth raw out h hl hA

set_option maxRecDepth 20000 in
/-- the hypotheses hold for the sample of C69, which the first round changes -/
example : ∃ out out' src' raw' src, formOut 4 5 sampleAuto = some (raw', src) ∧ formIn 5 raw' src = some out ∧ formOut 4 5 out = some (out', src') ∧
    formIn 5 out' src' = some out ∧ out ≠ sampleAuto ∧ out = sampleNew := by
  obtain ⟨out, out', src', h1, h2, h3, _, _, _⟩ := C70_second_round_partial 4 5 sampleAuto ((formOut 4 5 sampleAuto).get sampleAuto_decodes).1
    ((formOut 4 5 sampleAuto).get sampleAuto_decodes).2 (Option.some_get sampleAuto_decodes).symm
    (tidyMain_of _ (by decide +kernel)) (by decide +kernel) (by decide +kernel)
    (by
      have : ((formOut 4 5 sampleAuto).get sampleAuto_decodes).2.data.all (fun e => decide (insideRef e.1 = inside e.1)) = true := by decide +kernel
      exact fun e he => of_decide_eq_true (List.all_eq_true.mp this e he))
    (tidyAttrs_of _ (by decide +kernel)) ⟨_, rfl⟩
  have h4 : formIn 5 ((formOut 4 5 sampleAuto).get sampleAuto_decodes).1 ((formOut 4 5 sampleAuto).get sampleAuto_decodes).2 = some sampleNew := by decide +kernel
  rw [h1] at h4
  cases h4
  exact ⟨sampleNew, out', src', _, _, (Option.some_get sampleAuto_decodes).symm, h1, h2, h3, by decide +kernel, rfl⟩

end V8.OAuto
