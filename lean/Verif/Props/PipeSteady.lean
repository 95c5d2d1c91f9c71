import Verif.Props.PipeExtract
/-
The classes build the same from a folder that stands for the one they wrote.
-/
namespace V8.Pipe
open V8.Str V8.Brace V8.Enc V8.JsonText V8.Object V8.Header
open V8.Tree hiding Dir
open V8.Store hiding Kind nodeOf
open V8.Code (Dir)
open V8.Leaf (dirOnly Leaf leafOut leafHas leafBack copyName leafOut_some)
open V8.FormObj (FCls Lim formOut formHas formBack formOut_some elemName objWord)
open V8.FormJson
open V8.Nested (Obj Entry)

/-! ### what the classes read -/

theorem stands_eq {k : Bool} {S S' : Text → Option Node} (hn : ∀ n, V8.Org.isElem n = true → fileIn S n = none) (h : Stands k S S') : fileIn S' = fileIn S := by
  funext n
  have h1 := h.1 n
  cases hS : fileIn S n with
  | none =>
    rw [hS] at h1
    generalize fileIn S' n = o at h1
    cases h1
    rfl
  | some b =>
    rw [hS] at h1
    generalize fileIn S' n = o at h1
    cases h1 with
    | some h2 =>
      rcases h2 with h2 | ⟨h2, _⟩
      · rw [h2]
      · rw [hn n h2] at hS
        cases hS

theorem stands_at {k : Bool} {S S' : Text → Option Node} (h : Stands k S S') {n : Text} (hn : V8.Org.isElem n = false) : fileIn S' n = fileIn S n := by
  have h1 := h.1 n
  generalize fileIn S' n = o' at h1
  generalize fileIn S n = o at h1
  cases h1 with
  | none => rfl
  | some h2 =>
    rcases h2 with h2 | ⟨h2, _⟩
    · rw [h2]
    · rw [hn] at h2
      cases h2

theorem leafBack_congr (x : Ext) (y : Bld) (t : Leaf) {S S' : Text → Option Node} (h : fileIn S' = fileIn S) (hd : ∀ n, dirOnly (S' n) = dirOnly (S n)) :
    leafBack x y t S' = leafBack x y t S := by
  unfold leafBack
  rw [h]
  have hp : ∀ j u name, V8.Leaf.partsIn x y.win t S' j u name = V8.Leaf.partsIn x y.win t S j u name := by
    intro j u name
    unfold V8.Leaf.partsIn V8.Leaf.pictureBack V8.Leaf.templateBack V8.Leaf.dataBack V8.Leaf.textBack V8.Leaf.referenceBack
    rw [h, hd]
  simp only [hp]

theorem formBack_congr (y : Bld) (g : Lim) (con : Option Text) (f : FCls) {S S' : Text → Option Node} (h1 : fileIn S' (idName f.name) = fileIn S (idName f.name))
    (h2 : fileIn S' (objName f.name) = fileIn S (objName f.name)) (h3 : fileIn S' (bslName f.name objWord) = fileIn S (bslName f.name objWord))
    (h4 : fileIn S' (binName f.name objWord) = fileIn S (binName f.name objWord))
    (h5 : ∀ auto con ty form, V8.FormObj.elemsIn g auto con ty (fileIn S' (elemName f.name)) form = V8.FormObj.elemsIn g auto con ty (fileIn S (elemName f.name)) form) :
    formBack y g con f S' = formBack y g con f S := by
  unfold formBack
  rw [h1, h2]
  have hp : ∀ j, V8.FormObj.codeBack f.name S' j = V8.FormObj.codeBack f.name S j := by
    intro j
    unfold V8.FormObj.codeBack
    rw [h3, h4]
  simp only [hp, h5]

/-- the classes read from a folder that stands for the one they wrote what they read from that -/
theorem steady_stands {C : Text → Option Class} (g : Lim) (x : Ext) (y : Bld) (ver : Text) (F : Text → Option Node) (hN : PlainNames C) :
    Steady (handlers C g x y ver) F Stands := by
  intro ty h con v info os src S' hk ho hS
  unfold handlers at hk
  rw [Option.map_eq_some_iff] at hk
  obtain ⟨c, hc, rfl⟩ := hk
  cases c with
  | file k =>
    cases v with
    | str u =>
      have ho' : (extractAll x k (some ver) F u).map (fun r => (r.1, r.2.1, nodes r.2.2)) = some (info, os, src) := ho
      rw [Option.map_eq_some_iff] at ho'
      obtain ⟨⟨i, o, s⟩, h1, h2⟩ := ho'
      simp only [Prod.mk.injEq] at h2
      obtain ⟨rfl, rfl, rfl⟩ := h2
      have he := stands_eq (no_elems (by rw [(extractAll_src h1).1]; exact hN.file _ _ Val.none _ hc rfl)) hS
      refine ⟨?_, ?_, fun con' p es => ?_⟩
      · show hasBoth k S' = hasBoth k _
        unfold hasBoth
        rw [he]
      · show conIn k ver S' = conIn k ver _
        unfold conIn
        rw [he]
      · show buildFull _ k es (fileIn S') = buildFull _ k es (fileIn _)
        rw [he]
    | none => cases ho
    | list l => cases ho
  | pick n k rest =>
    cases v with
    | str u =>
      have ho' : (match F u with
          | some (.file b) => (braceRead b).bind (fun d => ((Class.pick n k rest).kindAt (rootVal d)).bind (fun k' =>
              (extractAll x k' (some ver) F u).map (fun r => (r.1, r.2.1, nodes r.2.2))))
          | _ => none) = some (info, os, src) := ho
      cases hF : F u with
      | none => rw [hF] at ho'; cases ho'
      | some nd =>
        rw [hF] at ho'
        cases nd with
        | dir _ => cases ho'
        | file b =>
          simp only [Option.bind_eq_some_iff, Option.map_eq_some_iff] at ho'
          obtain ⟨d, _, k', hk', ⟨i, o, s⟩, h1, h2⟩ := ho'
          simp only [Prod.mk.injEq] at h2
          obtain ⟨rfl, rfl, rfl⟩ := h2
          have he := stands_eq (no_elems (by rw [(extractAll_src h1).1]; exact hN.file _ _ _ _ hc hk')) hS
          refine ⟨?_, rfl, fun con' p es => ?_⟩
          · show hasBoth k S' = hasBoth k _
            unfold hasBoth
            rw [he]
          · show (((fileIn S') (objName k.name)).bind readFile).bind (fun j => (treeAt j "header".toList).bind (fun h =>
              ((Class.pick n k rest).kindAt h).bind (fun k' => buildFull _ k' es (fileIn S')))) =
              (((fileIn (folder (nodes s))) (objName k.name)).bind readFile).bind (fun j => (treeAt j "header".toList).bind (fun h =>
              ((Class.pick n k rest).kindAt h).bind (fun k' => buildFull _ k' es (fileIn (folder (nodes s))))))
            rw [he]
    | none => cases ho
    | list l => cases ho
  | inner k =>
    cases v with
    | list l =>
      have ho' : (innerAll x k F (.list l)).map (fun r => (r.1, ([] : List Obj), nodes r.2)) = some (info, os, src) := ho
      rw [Option.map_eq_some_iff] at ho'
      obtain ⟨⟨i, s⟩, h1, h2⟩ := ho'
      simp only [Prod.mk.injEq] at h2
      obtain ⟨rfl, rfl, rfl⟩ := h2
      have he := stands_eq (no_elems (by rw [innerAll_src h1]; exact hN.inner _ _ hc)) hS
      refine ⟨?_, rfl, fun con' p es => ?_⟩
      · show hasBoth k S' = hasBoth k _
        unfold hasBoth
        rw [he]
      · show innerFull _ k (fileIn S') = innerFull _ k (fileIn _)
        rw [he]
    | none => cases ho
    | str u => cases ho
  | leaf t =>
    cases v with
    | str u =>
      obtain ⟨h1, h2⟩ := leaf_out ho
      simp only at h1 h2
      have he := stands_eq (leaf_folder h1).2.2 hS
      refine ⟨?_, rfl, fun con' p es => ?_⟩
      · show leafHas t S' = leafHas t _
        unfold leafHas
        rw [he]
      · exact leafBack_congr x _ t he (hS.2 rfl)
    | none => cases ho
    | list l => cases ho
  | form f =>
    cases v with
    | str u =>
      have hp := hN.form _ _ hc
      have e1 := stands_at hS (hp (idName f.name) List.mem_cons_self)
      have e2 := stands_at hS (hp (objName f.name) (List.mem_cons_of_mem _ List.mem_cons_self))
      have e3 := stands_at hS (hp (bslName f.name objWord) (List.mem_cons_of_mem _ (List.mem_cons_of_mem _ List.mem_cons_self)))
      have e4 := stands_at hS (hp (binName f.name objWord) (List.mem_cons_of_mem _ (List.mem_cons_of_mem _ (List.mem_cons_of_mem _ List.mem_cons_self))))
      refine ⟨?_, rfl, fun con' p es => ?_⟩
      · show formHas f S' = formHas f _
        unfold formHas
        rw [e1, e2]
      · refine formBack_congr _ g con' f e1 e2 e3 e4 (fun auto con ty form => ?_)
        have h1 := hS.1 (elemName f.name)
        generalize fileIn S' (elemName f.name) = o' at h1
        generalize fileIn (folder src) (elemName f.name) = o at h1
        cases h1 with
        | none => rfl
        | some h2 =>
          rcases h2 with h2 | ⟨_, h2⟩
          · rw [h2]
          · exact elemsIn_same g auto con ty h2 form
    | none => cases ho
    | list l => cases ho

end V8.Pipe
