import Verif.Props.VersionsNeg
import Verif.Props.OrgEx
/-
C75: a folder that meets the hypotheses.
-/
namespace V8.Versions.Ex
open V8.Str V8.Enc V8.Dec V8.Code V8.Brace V8.Descent
open V8.Org (Sys Content World Item Write isCode isElem put puts clear txt texts forms tasks areasOf ModuleOk FormOk codeAreas elemAreas Ready)
open V8.Org.Ex (m2 form M E areas1 areas2 k1 k2 k3 names_of elem_files)

def s : Sys := ⟨["p".toList, "src".toList], fun _ => none, false, true⟩

/-- the folder: two modules, the elements of a form, two other files -/
noncomputable def l : List (Item (List Text)) :=
  [(["A".toList], "m.bsl".toList, txt s (text exModule)), (["B".toList], "n.bsl".toList, txt s (text m2)),
   (["A".toList], "f.elem.json".toList, .elems form), (["A".toList], "f.json".toList, .bytes [5]), ([], "c.json".toList, .bytes [1, 2, 3])]

theorem ok1 : ModuleOk s exModule := by
  constructor
  · simp only [exModule, WFs, WF, and_true]
    refine ⟨⟨by decide +kernel, .inl (not_infix (by decide +kernel))⟩,
      ⟨by decide +kernel, by decide +kernel, not_infix (by decide +kernel), not_infix (by decide +kernel),
        by decide +kernel, not_infix (by decide +kernel), not_infix (by decide +kernel), _, _, _, k1, by decide, .inl rfl,
        ⟨by decide +kernel, .inr ⟨"&НаСервере".toList, "\n".toList, rfl, by decide +kernel, by decide, not_infix (by decide +kernel)⟩⟩,
        by decide +kernel, not_infix (by decide +kernel), not_infix (by decide +kernel), _, _, _, k2, by decide, .inl rfl,
        by decide +kernel, .inl (not_infix (by decide +kernel))⟩,
      by decide +kernel, .inl (not_infix (by decide +kernel))⟩
  · unfold ProperLines; decide +kernel
  · rw [names_of areas1]; decide
  · decide +kernel
  · decide +kernel

theorem ok2 : ModuleOk s m2 := by
  constructor
  · simp only [m2, WFs, WF, and_true]
    exact ⟨by decide +kernel, not_infix (by decide +kernel), not_infix (by decide +kernel), _, _, _, k3, by decide, .inl rfl,
      by decide +kernel, .inl (not_infix (by decide +kernel))⟩
  · unfold ProperLines; decide +kernel
  · rw [names_of areas2]; decide
  · decide +kernel
  · decide +kernel

theorem code_areas : codeAreas s M l = [((["lib".toList], "common.bsl".toList), .incl, "//DynamicDirective\n  #Область include_lib_util_str\n  #КонецОбласти\n".toList),
    ((["lib".toList, "util".toList], "str.bsl".toList), .incl, "Возврат;\n".toList),
    ((["lib".toList, "util".toList], "str.bsl".toList), .incl, "Возврат;\n".toList)] := by
  have e1 : ∀ (m : List Code.Node) (d : Dir), (nodesAreas m).map (fun p => (parse s.env p.1 (s.src ++ d), p.2.1, p.2.2.flatten)) =
      ((nodesAreas m).map (fun p => (p.1, p.2.1, p.2.2.flatten))).map (fun q => (parse s.env q.1 (s.src ++ d), q.2.1, q.2.2)) := by
    intro m d
    rw [List.map_map]
    rfl
  show ((nodesAreas exModule).map (fun p => (parse s.env p.1 (s.src ++ ["A".toList]), p.2.1, p.2.2.flatten))) ++
    (((nodesAreas m2).map (fun p => (parse s.env p.1 (s.src ++ ["B".toList]), p.2.1, p.2.2.flatten))) ++ []) = _
  rw [e1, e1, areas1, areas2]
  decide +kernel

theorem elem_areas : ∃ e, elemAreas id s E l = [((["lib".toList], "B.elem.json".toList), e)] := by
  have h := elem_files
  show ∃ e, ((areasOf id form).map (fun a => (Org.elemFile s a.1 (s.src ++ ["A".toList]), a.2))) ++ [] = _
  match ha : areasOf id form, h with
  | [a], h =>
    rw [List.map_singleton] at h
    have : a.1 = "lib_B".toList := by injection h
    refine ⟨a.2, ?_⟩
    rw [List.map_singleton, this, show Org.elemFile s "lib_B".toList (s.src ++ ["A".toList]) = (["lib".toList], "B.elem.json".toList) by decide +kernel]
    rfl
  | [], h => cases h
  | _ :: _ :: _, h => injection h with _ h; cases h

theorem names_eq : l.map (fun i => (i.1, i.2.1)) = [(["A".toList], "m.bsl".toList), (["B".toList], "n.bsl".toList), (["A".toList], "f.elem.json".toList),
    (["A".toList], "f.json".toList), ([], "c.json".toList)] := rfl

theorem ready (w : World (List Text)) : Ready id s w l M E := by
  obtain ⟨e, he⟩ := elem_areas
  constructor
  · rw [names_eq]; decide +kernel
  · intro i hi hk
    simp only [l, List.mem_cons, List.not_mem_nil, or_false] at hi
    rcases hi with rfl | rfl | rfl | rfl | rfl
    · exact ⟨rfl, ok1⟩
    · exact ⟨rfl, ok2⟩
    · exact absurd hk (by decide)
    · exact absurd hk (by decide)
    · exact absurd hk (by decide)
  · intro i hi hk
    simp only [l, List.mem_cons, List.not_mem_nil, or_false] at hi
    rcases hi with rfl | rfl | rfl | rfl | rfl
    · exact absurd hk (by decide)
    · exact absurd hk (by decide)
    · refine ⟨rfl, ?_, ?_, ?_⟩ <;> show _ <;> decide +kernel
    · exact absurd hk (by decide)
    · exact absurd hk (by decide)
  · rw [code_areas]; decide +kernel
  · rw [he]
    intro a ha
    rw [List.mem_singleton.mp ha]
    show ¬ s.src <+: ["lib".toList]
    decide +kernel
  · rw [code_areas]; decide +kernel
  · rw [he]
    intro a ha b hb _
    rw [List.mem_singleton.mp ha, List.mem_singleton.mp hb]
  · rw [code_areas]
    intro a ha ht
    simp only [List.mem_cons, List.not_mem_nil, or_false] at ha
    rcases ha with rfl | rfl | rfl <;> cases ht

/-- the names alone -/
def nm : List (Dir × Text) := [(["A".toList], "m.bsl".toList), (["B".toList], "n.bsl".toList), (["A".toList], "f.elem.json".toList),
    (["A".toList], "f.json".toList), ([], "c.json".toList)]

theorem of_names {P : Dir × Text → Prop} (h : ∀ x ∈ nm, P x) : ∀ i ∈ l, P (i.1, i.2.1) := fun i hi =>
  h _ (by show _ ∈ nm; rw [nm, ← names_eq]; exact List.mem_map.mpr ⟨i, hi, rfl⟩)

theorem stored_eq (d : Nat) (p : Dir) : storedNames d l p = ((nm.filter (fun x => x.1 = p)).map (fun x => (stored d x.2, some []))) := by
  unfold storedNames nm
  rw [← names_eq, List.filter_map, List.map_map]
  rfl

/-- a name that is in no other name's way -/
theorem clear_list (dir : Folder) (n : Text) (h : (dir.all (fun p => decide (n = p.1) || !starts (stem n) p.1 ||
    decide (p.1 = descentName n 7) || (parseInt ((split '.' p.1).dropLast.getLast?.getD [])).isNone)) = true) : ClearNames dir n := by
  intro p hp h1 h2 h3 h4 h5 h6
  have := List.all_eq_true.mp h p hp
  simp only [Bool.or_eq_true, decide_eq_true_eq, Bool.not_eq_true'] at this
  rcases this with ((h | h) | h) | h
  · exact absurd h.symm h2
  · exfalso
    rw [(Descent.starts_iff _ _).mpr h3] at h
    cases h
  · exact ⟨7, by decide, h⟩
  · exact absurd (Option.isNone_iff_eq_none.mp h) h6

theorem fit : Fit s 7 l := by
  constructor
  · rfl
  · exact fun h => by cases h
  · exact of_names (P := fun x => '.' ∈ x.2) (by decide +kernel)
  · intro i hi j hj
    exact of_names (P := fun x => ∀ y ∈ nm, x.1 = y.1 → isElem y.2 = false → x.2 = descentName y.2 7 → x.2 = y.2) (by decide +kernel) i hi (j.1, j.2.1)
      (by rw [nm, ← names_eq]; exact List.mem_map.mpr ⟨j, hj, rfl⟩)
  · intro i hi j hj
    exact of_names (P := fun x => ∀ y ∈ nm, ¬ x.1 ++ [x.2] <+: y.1 ∧ ¬ x.1 ++ [stored 7 x.2] <+: y.1) (by decide +kernel) i hi (j.1, j.2.1)
      (by rw [nm, ← names_eq]; exact List.mem_map.mpr ⟨j, hj, rfl⟩)
  · refine of_names (P := fun x => ClearNames (storedNames 7 l x.1) x.2) ?_
    intro x hx
    rw [stored_eq]
    apply clear_list
    revert x
    decide +kernel
  · refine of_names (P := fun x => isCode x.2 = true → ClearNames (storedNames 7 l x.1) (descentName x.2 7)) ?_
    intro x hx hc
    rw [stored_eq]
    apply clear_list
    revert hc
    revert x
    decide +kernel

theorem fit0 : Fit s 0 l := by
  constructor
  · rfl
  · exact fun _ => of_names (P := fun x => removeDescent x.2 = some x.2) (by decide +kernel)
  · exact of_names (P := fun x => '.' ∈ x.2) (by decide +kernel)
  · intro i hi j hj _ _ h
    exact h
  · intro i hi j hj
    exact of_names (P := fun x => ∀ y ∈ nm, ¬ x.1 ++ [x.2] <+: y.1 ∧ ¬ x.1 ++ [stored 0 x.2] <+: y.1) (by decide +kernel) i hi (j.1, j.2.1)
      (by rw [nm, ← names_eq]; exact List.mem_map.mpr ⟨j, hj, rfl⟩)
  · refine of_names (P := fun x => ClearNames (storedNames 0 l x.1) x.2) ?_
    intro x hx
    rw [stored_eq]
    apply clear_list
    revert x
    decide +kernel
  · refine of_names (P := fun x => isCode x.2 = true → ClearNames (storedNames 0 l x.1) (descentName x.2 0)) ?_
    intro x hx hc
    rw [stored_eq]
    apply clear_list
    revert hc
    revert x
    decide +kernel

theorem outside : AreasOutside s l M := by
  unfold AreasOutside
  rw [code_areas]
  decide +kernel

/-- the folder extracted at version 7 and built at version 9; the module is saved with the version, the shared area without -/
example (w : World (List Text)) : ∃ w' view, Unpacked id s 7 w l w' ∧ Views s w' view ∧
    (∃ b, pack id s w' view 9 5 (l.map (fun i => (i.1, some i.2.1))) = some b ∧ ∀ p n c, b (p, n) = some c ↔ (p, n, c) ∈ l) ∧
    w' (["p".toList, "src".toList, "A".toList], "m.7.bsl".toList) ≠ none ∧
    w' (["lib".toList, "util".toList], "str.bsl".toList) = some (txt s "Возврат;\n".toList) := by
  obtain ⟨w', view, h1, h2, h3⟩ := C75_runs id s 7 w l M E (ready w) fit outside (by
    intro i _ _
    show V8.Areas.areasOut id form.tree [] form.data ≠ none
    rw [← Option.isSome_iff_ne_none]
    decide +kernel)
  refine ⟨w', view, h1, h2, C75_folder_back id s 7 w w' l M E (ready w) fit outside h1 9 (by decide) view h2 _ h3 5 ?_, ?_, ?_⟩
  · intro i _ _
    unfold M
    by_cases h : i.2.1 = "m.bsl".toList
    · rw [if_pos h]; decide
    · rw [if_neg h]; decide
  · refine (C75_where id s 7 w w' l M E (ready w) fit outside h1 ["A".toList] "m.7.bsl".toList).mpr (.inr ⟨"m".toList, "bsl".toList,
      txt s (text exModule), by decide, ?_, by decide, by decide +kernel⟩)
    exact List.mem_cons_self
  · exact (C75_outside id s 7 w w' l M E (ready w) fit outside h1).1 ((["lib".toList, "util".toList], "str.bsl".toList), .incl, "Возврат;\n".toList)
      (by rw [code_areas]; decide)

/-- the same folder extracted at the base version: the names are those of the product, and it can be built at any version -/
example (w : World (List Text)) (d : Nat) : ∃ w' view, Unpacked id s 0 w l w' ∧ Views s w' view ∧
    (∃ b, pack id s w' view d 5 (l.map (fun i => (i.1, some i.2.1))) = some b ∧ ∀ p n c, b (p, n) = some c ↔ (p, n, c) ∈ l) ∧
    w' (["p".toList, "src".toList, "A".toList], "m.bsl".toList) ≠ none := by
  obtain ⟨w', view, h1, h2, h3⟩ := C75_runs id s 0 w l M E (ready w) fit0 outside (by
    intro i _ _
    show V8.Areas.areasOut id form.tree [] form.data ≠ none
    rw [← Option.isSome_iff_ne_none]
    decide +kernel)
  refine ⟨w', view, h1, h2, C75_folder_back id s 0 w w' l M E (ready w) fit0 outside h1 d (Nat.zero_le d) view h2 _ h3 5 ?_, ?_⟩
  · intro i _ _
    unfold M
    by_cases h : i.2.1 = "m.bsl".toList
    · rw [if_pos h]; decide
    · rw [if_neg h]; decide
  · exact laid_some (laid (ready w) fit0 outside h1) (["A".toList], "m.bsl".toList, txt s (text exModule)) List.mem_cons_self

/-- the name of the negation -/
example : versionFile "Configuration".toList "bsl".toList 802 = "Configuration.802.bsl".toList := by decide +kernel

/-- the sources of a product that is only the file `n`, saved as `k` -/
noncomputable def lost (w : World (List Text)) (k : Text) (c : Content (List Text)) : World (List Text) := put (clear s w) ((s.src, k), c)

theorem lost_at (w : World (List Text)) (k : Text) (c : Content (List Text)) (p : Dir) (m : Text) : lost w k c (s.src ++ p, m) ≠ none ↔ p = [] ∧ m = k := by
  show (if (s.src ++ p, m) = (s.src, k) then some _ else clear s w (s.src ++ p, m)) ≠ none ↔ _
  by_cases h : (s.src ++ p, m) = (s.src, k)
  · rw [if_pos h]
    injection h with h1 h2
    exact ⟨fun _ => ⟨List.append_right_eq_self.mp h1, h2⟩, fun _ h => by cases h⟩
  · rw [if_neg h, clear_none]
    refine ⟨fun h => absurd rfl h, fun ⟨h1, h2⟩ => absurd ?_ h⟩
    rw [h1, h2, List.append_nil]

theorem lost_run (w : World (List Text)) (n k : Text) (c : Content (List Text)) (h1 : isCode n = false) (h2 : isElem n = false) (h3 : near [] n 7 = none)
    (h4 : descentName n 7 = k) : Unpacked id s 7 w [([], n, c)] (lost w k c) := by
  refine ⟨[], [], [], [], lost w k c, [clear s w], lost w k c, [], ?_, ?_, .refl _, .refl _, ?_, .done _, rfl⟩
  · simp only [List.filter_cons, h1, Bool.false_eq_true, if_false, List.filter_nil]
    rfl
  · simp only [List.filter_cons, h2, Bool.false_eq_true, if_false, List.filter_nil]
    rfl
  · have hp : plainPuts s [([], n, c)] = [⟨(s.src, n), c, sameBytes c⟩] := by
      unfold plainPuts
      simp only [List.filter_cons, h1, h2, Bool.not_false, Bool.and_self, if_true, List.filter_nil, List.map_cons, List.map_nil, List.append_nil]
    rw [hp]
    refine .step _ _ _ _ (clear s w) [] (lost w k c) _ List.mem_cons_self (fun _ => ⟨fun n => ?_, fun n => ?_⟩) ?_ (.done _)
    · have := clear_none s w [] n
      rw [List.append_nil] at this
      rw [this]
      exact ⟨fun h => (by cases h), fun h => absurd rfl h⟩
    · refine ⟨fun h => (by cases h), fun ⟨q, m, h⟩ => absurd (clear_none s w (n :: q) m) h⟩
    · unfold saveOne saveName
      have hin := inside_prefix s []
      rw [List.append_nil] at hin
      simp only [hin, h3, h4, if_true]
      by_cases hf : isFile [] k = true
      · rw [if_pos hf]; rfl
      · rw [if_neg hf]; rfl

theorem lost_views (w : World (List Text)) (k : Text) (c : Content (List Text)) : Views s (lost w k c) (fun p => if p = [] then [(k, some [])] else []) := by
  intro p
  simp only
  by_cases hp : p = []
  · rw [if_pos hp]
    refine ⟨fun n => ?_, fun n => ?_⟩
    · rw [isFile_iff, lost_at]
      refine ⟨fun ⟨c, hc⟩ => ⟨hp, ?_⟩, fun h => ⟨[], by rw [h.2]; exact List.mem_cons_self⟩⟩
      rw [List.mem_singleton] at hc
      injection hc
    · refine ⟨fun h => ?_, fun ⟨q, m, h⟩ => ?_⟩
      · rw [List.mem_singleton] at h
        injection h with _ h
        cases h
      · rw [List.append_assoc, lost_at] at h
        have := congrArg List.length h.1
        simp at this
  · rw [if_neg hp]
    refine ⟨fun n => ?_, fun n => ?_⟩
    · rw [isFile_iff, lost_at]
      exact ⟨fun ⟨c, hc⟩ => (by cases hc), fun h => absurd h.1 hp⟩
    · refine ⟨fun h => (by cases h), fun ⟨q, m, h⟩ => ?_⟩
      rw [List.append_assoc, lost_at] at h
      have := congrArg List.length h.1
      simp at this

theorem lost_listing (w : World (List Text)) (k : Text) (c : Content (List Text)) (hk : removeDescent k = some k) : Listing s (lost w k c) [([], some k)] := by
  intro p x
  rw [List.mem_singleton]
  constructor
  · intro h
    injection h with h1 h2
    subst h1 h2
    refine ⟨⟨k, (lost_at w k c [] _).mpr ⟨rfl, rfl⟩, hk⟩, fun n _ q m => ?_⟩
    apply Classical.byContradiction
    intro h
    rw [List.append_assoc] at h
    have := congrArg List.length ((lost_at w k c _ _).mp h).1
    simp at this
  · rintro ⟨⟨m, hm, rfl⟩, _⟩
    obtain ⟨rfl, rfl⟩ := (lost_at w k c _ _).mp hm
    rw [hk]

theorem lost_pack (w : World (List Text)) (n k : Text) (c : Content (List Text)) (h1 : isCode k = false) (h2 : isElem k = false) (h3 : near [(k, some [])] k 7 = some k)
    (hn : k ≠ n) : ∃ b, pack id s (lost w k c) (fun p => if p = [] then [(k, some [])] else []) 7 5 [([], some k)] = some b ∧ b ([], k) = some c ∧ b ([], n) = none := by
  have h1 : packOne id s (lost w k c) (fun p => if p = [] then [(k, some [])] else []) 7 5 [] (some k) = some c := by
    unfold packOne
    simp only [if_true, h3, Option.bind_some, h1, h2, Bool.false_eq_true, if_false]
    exact if_pos rfl
  refine ⟨fun h => (none : Option (Content (List Text))).or (if some k = some h.2 ∧ [] = h.1 then some c else none), ?_, if_pos ⟨rfl, rfl⟩,
    if_neg (fun h => hn (Option.some.inj h.1))⟩
  rw [pack]
  simp only
  rw [h1]
  rfl

/-- a folder with a splash screen can be extracted, and the build of the sources gives `7.Заставка` in its place -/
example (w : World (List Text)) : ∃ w' view, Unpacked id s 7 w [([], "Заставка".toList, .bytes [9])] w' ∧ Views s w' view ∧ Listing s w' [([], some "7.Заставка".toList)] ∧
    ∃ b, pack id s w' view 7 5 [([], some "7.Заставка".toList)] = some b ∧ b ([], "7.Заставка".toList) = some (.bytes [9]) ∧ b ([], "Заставка".toList) = none :=
  ⟨_, _, lost_run w _ _ _ (by decide +kernel) (by decide +kernel) (by decide +kernel) (by decide +kernel), lost_views _ _ _, lost_listing _ _ _ (by decide +kernel),
    lost_pack _ _ _ _ (by decide +kernel) (by decide +kernel) (by decide +kernel) (by decide +kernel)⟩

end V8.Versions.Ex
