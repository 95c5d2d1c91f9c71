import Verif.Props.Org
import Verif.Props.Code
/-
C66: a folder that meets the hypotheses.
-/
namespace V8.Org.Ex
open V8.Str V8.Enc V8.Code V8.Brace V8.Org

def s : Sys := ⟨["p".toList, "src".toList], fun _ => none, false, false⟩

/-- a module that shares an area with `exModule` -/
def m2 : List Node := [.area "#Область include_lib_util_str\n".toList [.line "Возврат;\n".toList] "#КонецОбласти\n".toList]

open V8.Areas in
/-- a form with an area for a group -/
def form : Elems (List Text) := ⟨[n "H" (some [n "include_lib_B" (some [n "Ok" none])])],
  dict [("H", []), ("H/include_lib_B", ["b"]), ("H/include_lib_B/Ok", ["ok"])], []⟩

def M (_ : Dir) (n : Text) : List Node := if n = "m.bsl".toList then exModule else m2
def E (_ : Dir) (_ : Text) : V8.Areas.Elems (List Text) := form

/-- the folder: a module in `A`, one in `B`, the elements of a form, a JSON file -/
noncomputable def l : List (Item (List Text)) :=
  [(["A".toList], "m.bsl".toList, txt s (text exModule)), (["B".toList], "n.bsl".toList, txt s (text m2)),
   (["A".toList], "f.elem.json".toList, .elems form), ([], "c.json".toList, .bytes [1, 2, 3])]

theorem k1 : kind "#Область include_lib_common //&НаСервере\n".toList = .area .incl "lib_common".toList (some "&НаСервере".toList) := by decide +kernel
theorem k2 : kind "  #Область include_lib_util_str\n".toList = .area .incl "lib_util_str".toList none := by decide +kernel
theorem k3 : kind "#Область include_lib_util_str\n".toList = .area .incl "lib_util_str".toList none := by decide +kernel

theorem areas1 : (nodesAreas exModule).map (fun p => (p.1, p.2.1, p.2.2.flatten)) =
    [("lib_common".toList, .incl, "//DynamicDirective\n  #Область include_lib_util_str\n  #КонецОбласти\n".toList), ("lib_util_str".toList, .incl, "Возврат;\n".toList)] := by
  simp only [exModule, nodesAreas, Node.areas, k1, k2, List.nil_append, List.append_nil]
  decide +kernel

theorem areas2 : (nodesAreas m2).map (fun p => (p.1, p.2.1, p.2.2.flatten)) = [("lib_util_str".toList, .incl, "Возврат;\n".toList)] := by
  simp only [m2, nodesAreas, Node.areas, k3, List.append_nil]
  decide +kernel

theorem names_of {m : List Node} {r : List (Text × AreaType × Text)} (h : (nodesAreas m).map (fun p => (p.1, p.2.1, p.2.2.flatten)) = r) :
    (nodesAreas m).map (·.1) = r.map (·.1) := by
  rw [← h, List.map_map]
  rfl

theorem ok1 : ModuleOk s exModule := by
  constructor
  · simp only [exModule, WFs, WF, and_true]
    refine ⟨⟨by decide +kernel, .inl (not_infix (by decide +kernel))⟩,
      ⟨by decide +kernel, by decide +kernel, not_infix (by decide +kernel), not_infix (by decide +kernel),
        by decide +kernel, not_infix (by decide +kernel), not_infix (by decide +kernel), _, _, _, k1, by decide, .inr (by decide +kernel),
        ⟨by decide +kernel, .inr ⟨"&НаСервере".toList, "\n".toList, rfl, by decide +kernel, by decide, not_infix (by decide +kernel)⟩⟩,
        by decide +kernel, not_infix (by decide +kernel), not_infix (by decide +kernel), _, _, _, k2, by decide, .inr (by decide +kernel),
        by decide +kernel, .inl (not_infix (by decide +kernel))⟩,
      by decide +kernel, .inl (not_infix (by decide +kernel))⟩
  · unfold ProperLines; decide +kernel
  · rw [names_of areas1]; decide
  · decide +kernel
  · decide +kernel

theorem ok2 : ModuleOk s m2 := by
  constructor
  · simp only [m2, WFs, WF, and_true]
    exact ⟨by decide +kernel, not_infix (by decide +kernel), not_infix (by decide +kernel), _, _, _, k3, by decide, .inr (by decide +kernel),
      by decide +kernel, .inl (not_infix (by decide +kernel))⟩
  · unfold ProperLines; decide +kernel
  · rw [names_of areas2]; decide
  · decide +kernel
  · decide +kernel

theorem code_areas : codeAreas s M l = [((["p".toList, "lib".toList], "common.bsl".toList), .incl, "//DynamicDirective\n  #Область include_lib_util_str\n  #КонецОбласти\n".toList),
    ((["p".toList, "lib".toList, "util".toList], "str.bsl".toList), .incl, "Возврат;\n".toList),
    ((["p".toList, "lib".toList, "util".toList], "str.bsl".toList), .incl, "Возврат;\n".toList)] := by
  have h1 := areas1
  have h2 := areas2
  have e1 : ∀ (m : List Node) (d : Dir), (nodesAreas m).map (fun p => (parse s.env p.1 (s.src ++ d), p.2.1, p.2.2.flatten)) =
      ((nodesAreas m).map (fun p => (p.1, p.2.1, p.2.2.flatten))).map (fun q => (parse s.env q.1 (s.src ++ d), q.2.1, q.2.2)) := by
    intro m d
    rw [List.map_map]
    rfl
  show ((nodesAreas exModule).map (fun p => (parse s.env p.1 (s.src ++ ["A".toList]), p.2.1, p.2.2.flatten))) ++
    (((nodesAreas m2).map (fun p => (parse s.env p.1 (s.src ++ ["B".toList]), p.2.1, p.2.2.flatten))) ++ []) = _
  rw [e1, e1, h1, h2]
  decide +kernel

theorem elem_files : (areasOf id form).map (·.1) = ["lib_B".toList] := by decide +kernel

theorem elem_areas : ∃ e, elemAreas id s E l = [((["p".toList, "lib".toList], "B.elem.json".toList), e)] := by
  have h := elem_files
  show ∃ e, ((areasOf id form).map (fun a => (elemFile s a.1 (s.src ++ ["A".toList]), a.2))) ++ [] = _
  match ha : areasOf id form, h with
  | [a], h =>
    rw [List.map_singleton] at h
    have : a.1 = "lib_B".toList := by injection h
    refine ⟨a.2, ?_⟩
    rw [List.map_singleton, this, show elemFile s "lib_B".toList (s.src ++ ["A".toList]) = (["p".toList, "lib".toList], "B.elem.json".toList) by decide +kernel]
    rfl
  | [], h => cases h
  | _ :: _ :: _, h => injection h with _ h; cases h

theorem ready (w : World (List Text)) : Ready id s w l M E := by
  obtain ⟨e, he⟩ := elem_areas
  constructor
  · decide +kernel
  · intro i hi hk
    simp only [l, List.mem_cons, List.not_mem_nil, or_false] at hi
    rcases hi with rfl | rfl | rfl | rfl
    · exact ⟨rfl, ok1⟩
    · exact ⟨rfl, ok2⟩
    · exact absurd hk (by decide)
    · exact absurd hk (by decide)
  · intro i hi hk
    simp only [l, List.mem_cons, List.not_mem_nil, or_false] at hi
    rcases hi with rfl | rfl | rfl | rfl
    · exact absurd hk (by decide)
    · exact absurd hk (by decide)
    · refine ⟨rfl, ?_, ?_, ?_⟩ <;> show _ <;> decide +kernel
    · exact absurd hk (by decide)
  · rw [code_areas]; decide +kernel
  · rw [he]
    intro a ha
    rw [List.mem_singleton.mp ha]
    show ¬ s.src <+: ["p".toList, "lib".toList]
    decide +kernel
  · rw [code_areas]; decide +kernel
  · rw [he]
    intro a ha b hb _
    rw [List.mem_singleton.mp ha, List.mem_singleton.mp hb]
  · rw [code_areas]
    intro a ha ht
    simp only [List.mem_cons, List.not_mem_nil, or_false] at ha
    rcases ha with rfl | rfl | rfl <;> cases ht

/-- the folder is laid out and put together again, and something has been moved: the shared area is in its own file -/
example (w : World (List Text)) : ∃ w', Unpacked id s w l w' ∧
    (∃ d, pack id s w' 5 (l.map (fun i => (i.1, i.2.1))) = some d ∧ ∀ p n c, d (p, n) = some c ↔ (p, n, c) ∈ l) ∧
    w' (["p".toList, "lib".toList, "util".toList], "str.bsl".toList) = some (txt s "Возврат;\n".toList) := by
  obtain ⟨w', h1, h2⟩ := C66_runs id s w l M E (ready w) (by
    intro i _ _
    show V8.Areas.areasOut id form.tree [] form.data ≠ none
    rw [← Option.isSome_iff_ne_none]
    decide +kernel)
  refine ⟨w', h1, C66_folder_back id s w w' l M E (ready w) h1 _ h2 5 ?_, ?_⟩
  · intro i _ _
    unfold M
    by_cases h : i.2.1 = "m.bsl".toList
    · rw [if_pos h]; decide
    · rw [if_neg h]; decide
  · exact (laid (ready w) h1).area ((["p".toList, "lib".toList, "util".toList], "str.bsl".toList), .incl, "Возврат;\n".toList) (by rw [code_areas]; decide)

/-- the hypotheses of the negation hold for a module with the area `include_Общее` -/
example : V8.Code.unpack "#Область include_Общее\nх\n#КонецОбласти\n".toList = some
    [("root".toList, ⟨.incl, "#Область include_Общее\n#КонецОбласти\n".toList⟩), ("Общее".toList, ⟨.incl, "х\n".toList⟩)] := by decide +kernel

end V8.Org.Ex
