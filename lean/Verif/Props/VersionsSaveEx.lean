import Verif.Props.VersionsSave
import Verif.Props.VersionsEx
/-
C20: a folder with an older version of the file that is saved.
-/
namespace V8.Versions.Ex
open V8.Str V8.Enc V8.Dec V8.Code V8.Brace V8.Descent
open V8.Org (Sys Content World put clear txt)

/-- the module as a text editor on Windows keeps it: byte order mark and `\r\n` -/
def kept6 : Bytes := bom8 ++ "A;\r\nB;\r\n".toList.map (fun c => UInt8.ofNat c.toNat)

theorem kept6_text : utf8SigText kept6 = some "A;\r\nB;\r\n".toList := by decide +kernel

theorem kept6_universal : universal "A;\r\nB;\r\n".toList = "A;\nB;\n".toList := by decide +kernel

def dir6 : Folder := [("m.6.bsl".toList, some [])]

theorem shows6 (w : World (List Text)) (c : Content (List Text)) : Shows (lost w "m.6.bsl".toList c) s.src dir6 := by
  have := lost_views w "m.6.bsl".toList c []
  rw [List.append_nil] at this
  simp only [if_true] at this
  exact this

theorem near6 : near dir6 "m.bsl".toList 7 = some "m.6.bsl".toList := by decide +kernel

theorem inside6 : inside s s.src = true := by
  have := inside_prefix s []
  rwa [List.append_nil] at this

theorem lost_self (w : World (List Text)) (k : Text) (c : Content (List Text)) : lost w k c (s.src, k) = some c := if_pos rfl

theorem lost_other (w : World (List Text)) (k n : Text) (c : Content (List Text)) (h : n ≠ k) : lost w k c (s.src, n) = none := by
  apply Classical.byContradiction
  intro hne
  have := (lost_at w k c [] n).mp (by rwa [List.append_nil])
  exact h this.2

/-- version 6 of a module in Windows form is left alone when the same text is saved at version 7 -/
example (w : World (List Text)) : saveOne s 7 (lost w "m.6.bsl".toList (.bytes kept6)) (lost w "m.6.bsl".toList (.bytes kept6)) dir6
    ⟨(s.src, "m.bsl".toList), txt s "A;\nB;\n".toList, sameText "A;\nB;\n".toList⟩ = some (lost w "m.6.bsl".toList (.bytes kept6)) := by
  have h := (C20_unchanged_on_disk s 7 (lost w "m.6.bsl".toList (.bytes kept6)) dir6 (s.src, "m.bsl".toList) "m".toList "bsl".toList rfl (by decide) inside6 (shows6 w _)
    (lost_other w _ _ _ (by decide +kernel)) _ near6).2 kept6 _ (lost_self w _ _) kept6_text
  rwa [kept6_universal] at h

/-- another text is saved as `m.7.bsl`, and a build at version 7 takes it -/
example (w w' : World (List Text)) (h : saveOne s 7 (lost w "m.6.bsl".toList (.bytes kept6)) (lost w "m.6.bsl".toList (.bytes kept6)) dir6
    ⟨(s.src, "m.bsl".toList), txt s "C;\n".toList, sameText "C;\n".toList⟩ = some w') : w' (s.src, "m.7.bsl".toList) = some (txt s "C;\n".toList) := by
  have e7 : versionFile "m".toList "bsl".toList 7 = "m.7.bsl".toList := by decide +kernel
  rw [← e7]
  exact (C20_changed_on_disk s 7 _ w' dir6 (s.src, "m.bsl".toList) "m".toList "bsl".toList rfl (by decide) inside6 _ near6).2 kept6 _ _ (lost_self w _ _) kept6_text
    (by rw [kept6_universal]; decide) h

/-- and such a run exists -/
example (w : World (List Text)) : ∃ w', saveOne s 7 (lost w "m.6.bsl".toList (.bytes kept6)) (lost w "m.6.bsl".toList (.bytes kept6)) dir6
    ⟨(s.src, "m.bsl".toList), txt s "C;\n".toList, sameText "C;\n".toList⟩ = some w' := by
  unfold saveOne saveName
  simp only
  rw [if_pos inside6, near6]
  have e7 : isFile dir6 (descentName "m.bsl".toList 7) = false := by decide +kernel
  rw [e7]
  simp only [Bool.false_eq_true, if_false, lost_self, sameText, kept6_text, Option.map_some, kept6_universal]
  exact ⟨_, rfl⟩

/-- the hypotheses of `C20_module_on_disk` about the names in the folder -/
example : NoLookAlike dir6 "m".toList "bsl".toList := by
  intro p hp _ _ _ _ _ _
  rw [List.mem_singleton.mp hp]
  exact ⟨6, by decide, by decide +kernel⟩

end V8.Versions.Ex
