import Verif.JsonTextCut
/-
C58: the JSON files of the sources (descriptions of objects, index, converted brace files) give back what was written, on every platform,
and a file that was only partly written is never taken for a complete one.

`fileOf win x` are the bytes json_write puts into the file for the value `x` (`win`: on Windows), `readFile b` is json_read.
-/
namespace V8.JsonText
open V8.Dec V8.Brace V8.Enc

/-- an example: nested lists and dicts, all kinds of characters -/
def exJ : JT :=
  .obj [("name".toList, .str ['A', '"', '\\', '\n', '\r', '\t', Char.ofNat 1, Char.ofNat 12, Char.ofNat 8, 'ж', '\uFEFF', Char.ofNat 0x1F600]),
    ("".toList, .arr [.null, .bool true, .bool false, .int 0, .int 120, .int (-7), .arr [], .obj [], .str []]),
    ("header".toList, .arr [.arr [.str "{1,2}".toList, .null], .obj [(['k'], .int 1)]])]

theorem exJ_wf : exJ.WF := by
  simp only [exJ, JT.WF, WFd, WFs, and_true, true_and]
  refine ⟨?_, ?_, ?_⟩
  · decide +kernel
  · exact List.Pairwise.nil
  · exact List.pairwise_singleton _ _

/-- C58: every value comes back from its file, written on Unix or on Windows. -/
theorem C58_round_trip (win : Bool) (x : JT) (h : x.WF) : readFile (fileOf win x) = some x := by
  unfold readFile fileOf
  rw [utf8Text_utf8]
  simp only [Option.bind_some]
  rw [V8.Module.universal_osWrite win _ (dump_nocr x h 0), loads_dump x h]

example : readFile (fileOf true exJ) = some exJ := C58_round_trip true exJ exJ_wf

/-- C58: different values have different files, even on different platforms. -/
theorem C58_files_differ (w w' : Bool) (x y : JT) (hx : x.WF) (hy : y.WF) (h : fileOf w x = fileOf w' y) : x = y := by
  have h1 := C58_round_trip w x hx
  rw [h, C58_round_trip w' y hy] at h1
  exact (Option.some.inj h1).symm

example : fileOf false exJ ≠ fileOf true (.arr [exJ]) := fun h => by
  have := C58_files_differ false true exJ (.arr [exJ]) exJ_wf (by rw [JT.WF, WFs, WFs]; exact ⟨exJ_wf, trivial⟩) h
  exact absurd this (by simp [exJ])

/-- C58: a file that lost its end (a crash while writing, a full disk) at any byte is refused: no list and no dict can be mistaken for another
one because the end of its file is missing. -/
theorem C58_cut_file_refused (win : Bool) (x : JT) (h : x.WF) (hx : (∃ l, x = .arr l) ∨ ∃ d, x = .obj d) (b : Bytes)
    (hb : b <+: fileOf win x) (hne : b ≠ fileOf win x) : readFile b = none := by
  unfold readFile
  cases ht : utf8Text b with
  | none => rfl
  | some t =>
    simp only [Option.bind_some]
    have e := utf8_utf8Text ht
    obtain ⟨z, hz⟩ := hb
    have hp : t <+: osWrite win (dump 0 x) := utf8_prefix t _ z (by rw [e, hz]; rfl)
    have hc : Cut t (osWrite win (dump 0 x)) := ⟨hp, fun hh => hne (by rw [← e, hh]; rfl)⟩
    exact loads_cut x h hx _ (universal_cut win _ t (dump_nocr x h 0) (dump_last x hx 0) hc)

example (n : Nat) (hn : n < (fileOf true exJ).length) : readFile ((fileOf true exJ).take n) = none :=
  C58_cut_file_refused true exJ exJ_wf (.inr ⟨_, rfl⟩) _ (List.take_prefix _ _) (fun h => by
    have := congrArg List.length h
    rw [List.length_take] at this; omega)

/-- the files of the tool are lists and dicts; a file with a bare number could lose its end unnoticed -/
theorem C58_bare_number_cut : readFile (utf8 ['1', '2']) = some (.int 12) ∧ readFile (utf8 ['1']) = some (.int 1) := by
  unfold readFile
  rw [utf8Text_utf8, utf8Text_utf8]
  constructor <;> rfl

end V8.JsonText
