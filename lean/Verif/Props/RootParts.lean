import Verif.Props.RootLists
import Verif.Props.Misc
/-
The parts of a product: places of the lists, splash screen, brace files, description.
-/
namespace V8.Root
open V8.Brace V8.Enc V8.JsonText V8.Header V8.Store V8.Tree V8.Embed
open V8.Nested hiding Env Handler
open V8.Object hiding Cls
open V8.Product (getAt setAt getAt_setAt setAt_getAt setAt_some getAt_frame setAt_setAt Options)
open V8.Misc (Cls)

/-! ### the places of the lists -/

theorem groupPaths_shape {groups : List Text} {h : Val} : ∀ (n i : Nat) (ps : List (List Nat)), groupPaths groups h i n = some ps →
    ∀ p ∈ ps, ∃ j, i ≤ j ∧ (p = [0, j + 3, 1] ∧ getAt h [0, j + 3, 1, 0] ≠ some (.str ['6']) ∨ p = [0, j + 3, 1, 1] ∧ getAt h [0, j + 3, 1, 0] = some (.str ['6']))
  | 0, i, ps, hp => by
    rw [groupPaths] at hp
    cases hp
    intro p hm
    cases hm
  | n + 1, i, ps, hp => by
    rw [groupPaths] at hp
    cases h1 : getAt h [0, i + 3, 0] with
    | none => simp [h1] at hp
    | some a =>
      cases h2 : getAt h [0, i + 3, 1, 0] with
      | none => simp [h1, h2] at hp
      | some v =>
        cases a with
        | none => simp [h1] at hp
        | list _ => simp [h1] at hp
        | str u =>
          simp only [h1, h2] at hp
          by_cases hu : u ∈ groups
          · rw [if_pos hu, Option.map_eq_some_iff] at hp
            obtain ⟨r, hr, rfl⟩ := hp
            intro p hm
            rcases List.mem_cons.mp hm with rfl | hm
            · refine ⟨i, Nat.le_refl _, ?_⟩
              by_cases hv : v = .str ['6']
              · rw [if_pos hv, h2, hv]; exact .inr ⟨rfl, rfl⟩
              · rw [if_neg hv, h2]; exact .inl ⟨rfl, fun hh => hv (Option.some.inj hh)⟩
            · obtain ⟨j, hj, hh⟩ := groupPaths_shape n (i + 1) r hr p hm
              exact ⟨j, by omega, hh⟩
          · rw [if_neg hu] at hp; cases hp

theorem apart_at {i j : Nat} {p q : List Nat} (h : i ≠ j) : Apart (0 :: i :: p) (0 :: j :: q) := by
  constructor
  · intro hh
    rw [List.cons_prefix_cons, List.cons_prefix_cons] at hh
    exact h hh.2.1
  · intro hh
    rw [List.cons_prefix_cons, List.cons_prefix_cons] at hh
    exact h hh.2.1.symm

theorem groupPaths_apart {groups : List Text} {h : Val} : ∀ (n i : Nat) (ps : List (List Nat)), groupPaths groups h i n = some ps → ps.Pairwise Apart
  | 0, i, ps, hp => by
    rw [groupPaths] at hp
    cases hp
    exact .nil
  | n + 1, i, ps, hp => by
    have hp0 := hp
    rw [groupPaths] at hp
    cases h1 : getAt h [0, i + 3, 0] with
    | none => simp [h1] at hp
    | some a =>
      cases h2 : getAt h [0, i + 3, 1, 0] with
      | none => simp [h1, h2] at hp
      | some v =>
        cases a with
        | none => simp [h1] at hp
        | list _ => simp [h1] at hp
        | str u =>
          simp only [h1, h2] at hp
          by_cases hu : u ∈ groups
          · rw [if_pos hu, Option.map_eq_some_iff] at hp
            obtain ⟨r, hr, rfl⟩ := hp
            refine List.pairwise_cons.mpr ⟨?_, groupPaths_apart n (i + 1) r hr⟩
            intro q hq
            obtain ⟨j, hj, hh⟩ := groupPaths_shape n (i + 1) r hr q hq
            by_cases hv : v = .str ['6']
            · rw [if_pos hv]
              rcases hh with ⟨rfl, _⟩ | ⟨rfl, _⟩ <;> exact apart_at (by omega)
            · rw [if_neg hv]
              rcases hh with ⟨rfl, _⟩ | ⟨rfl, _⟩ <;> exact apart_at (by omega)
          · rw [if_neg hu] at hp; cases hp

theorem listPaths_apart {groups : List Text} {c : Cls} {h : Val} {ps : List (List Nat)} (hp : listPaths groups c h = some ps) : ps.Pairwise Apart := by
  have main : ∀ g : Option (List (List Nat)), g = some ps → g = (match getAt h [0, 2] with
    | some (.str n) => (V8.Dec.parseInt n).bind (fun c => groupPaths groups h 0 c.toNat)
    | _ => none) → ps.Pairwise Apart := by
    intro g hg he
    rw [hg] at he
    cases hn : getAt h [0, 2] with
    | none => simp [hn] at he
    | some a =>
      cases a with
      | none => simp [hn] at he
      | list _ => simp [hn] at he
      | str n =>
        simp only [hn] at he
        have he := he.symm
        rw [Option.bind_eq_some_iff] at he
        obtain ⟨m, _, hm⟩ := he
        exact groupPaths_apart _ _ _ hm
  cases c with
  | processor => cases hp; exact List.pairwise_singleton _ _
  | config => exact main _ hp rfl
  | extension => exact main _ hp rfl

/-- the paths of a product; the first group is not in the layout `6`, in which the header of a product cannot lie -/
theorem listPaths_calm {groups : List Text} {c : Cls} {h : Val} {ps : List (List Nat)} (hp : listPaths groups c h = some ps)
    (h6 : c ≠ .processor → getAt h [0, 3, 1, 0] ≠ some (.str ['6'])) :
    (∀ p ∈ ps, Calm p [0, 2]) ∧ (∀ p ∈ ps, ∀ j, Calm p [0, j + 3, 0]) ∧ (∀ p ∈ ps, ∀ j, Calm p [0, j + 3, 1, 0]) ∧
      ∀ p ∈ ps, ∀ r, Calm p (0 :: 3 :: 1 :: 1 :: r) := by
  have key : ∀ p ∈ ps, ∃ j, (p = [0, j + 3, 1] ∨ p = [0, j + 3, 1, 1] ∧ 0 < j) := by
    have main : ∀ g : Option (List (List Nat)), g = some ps → getAt h [0, 3, 1, 0] ≠ some (.str ['6']) → g = (match getAt h [0, 2] with
      | some (.str n) => (V8.Dec.parseInt n).bind (fun c => groupPaths groups h 0 c.toNat)
      | _ => none) → ∀ p ∈ ps, ∃ j, (p = [0, j + 3, 1] ∨ p = [0, j + 3, 1, 1] ∧ 0 < j) := by
      intro g hg h6 he
      rw [hg] at he
      cases hn : getAt h [0, 2] with
      | none => simp [hn] at he
      | some a =>
        cases a with
        | none => simp [hn] at he
        | list _ => simp [hn] at he
        | str n =>
          simp only [hn] at he
          have he := he.symm
          rw [Option.bind_eq_some_iff] at he
          obtain ⟨m, _, hm⟩ := he
          intro p hmem
          obtain ⟨j, _, ⟨hj, _⟩ | ⟨hj, hh⟩⟩ := groupPaths_shape _ _ _ hm p hmem
          · exact ⟨j, .inl hj⟩
          · refine ⟨j, .inr ⟨hj, ?_⟩⟩
            cases j with
            | zero => exact absurd hh h6
            | succ j => omega
    cases c with
    | processor =>
      cases hp
      intro p hm
      exact ⟨0, .inl (List.mem_singleton.mp hm)⟩
    | config => exact main _ hp (h6 (by decide)) rfl
    | extension => exact main _ hp (h6 (by decide)) rfl
  have twice : ∀ (a b c d : Nat), Apart [a, b, c] [a, b, d] ∨ c = d := by
    intro a b c d
    by_cases hcd : c = d
    · exact .inr hcd
    · refine .inl ⟨?_, ?_⟩ <;> · intro hh; simp only [List.cons_prefix_cons] at hh; omega
  refine ⟨?_, ?_, ?_, ?_⟩
  · intro p hm
    obtain ⟨j, rfl | ⟨rfl, _⟩⟩ := key p hm <;> exact .inl (apart_at (by omega))
  · intro p hm i
    obtain ⟨j, rfl | ⟨rfl, _⟩⟩ := key p hm
    · by_cases hij : j + 3 = i + 3
      · rw [hij]
        refine .inl ⟨?_, ?_⟩ <;> · intro hh; simp only [List.cons_prefix_cons] at hh; omega
      · exact .inl (apart_at hij)
    · by_cases hij : j + 3 = i + 3
      · rw [hij]
        refine .inl ⟨?_, ?_⟩ <;> · intro hh; simp only [List.cons_prefix_cons] at hh; omega
      · exact .inl (apart_at hij)
  · intro p hm i
    obtain ⟨j, rfl | ⟨rfl, _⟩⟩ := key p hm
    · by_cases hij : j + 3 = i + 3
      · rw [hij]
        exact .inr ⟨0, [], by omega, rfl⟩
      · exact .inl (apart_at hij)
    · by_cases hij : j + 3 = i + 3
      · rw [hij]
        refine .inl ⟨?_, ?_⟩ <;> · intro hh; simp only [List.cons_prefix_cons] at hh; omega
      · exact .inl (apart_at hij)
  · intro p hm r
    obtain ⟨j, rfl | ⟨rfl, hj⟩⟩ := key p hm
    · by_cases hij : j + 3 = 3
      · rw [hij]
        exact .inr ⟨1, r, by omega, rfl⟩
      · exact .inl (apart_at hij)
    · exact .inl (apart_at (by omega))

theorem groupPaths_congr {groups : List Text} {h h' : Val} (h0 : ∀ j, getAt h' [0, j + 3, 0] = getAt h [0, j + 3, 0])
    (h1 : ∀ j, getAt h' [0, j + 3, 1, 0] = getAt h [0, j + 3, 1, 0]) : ∀ n i, groupPaths groups h' i n = groupPaths groups h i n
  | 0, i => by rw [groupPaths, groupPaths]
  | n + 1, i => by
    rw [groupPaths, groupPaths, h0, h1, groupPaths_congr h0 h1 n (i + 1)]

/-- the places of the lists can be found again after the lists were taken apart -/
theorem listPaths_kept {E : Nested.Env} {auto : Bool} {made : List Text} {groups : List Text} {c : Cls} {h h' : Val} {ps : List (List Nat)} {os : List Obj}
    (hp : listPaths groups c h = some ps) (h6 : c ≠ .processor → getAt h [0, 3, 1, 0] ≠ some (.str ['6']))
    (ht : takeLists E auto made ps h = some (h', os)) : listPaths groups c h' = some ps := by
  obtain ⟨c1, c2, c3, _⟩ := listPaths_calm hp h6
  have e1 := takeLists_calm _ _ _ _ _ ht c1
  have e2 := fun j => takeLists_calm _ _ _ _ _ ht (fun p hm => c2 p hm j)
  have e3 := fun j => takeLists_calm _ _ _ _ _ ht (fun p hm => c3 p hm j)
  rw [← hp]
  cases c with
  | processor => rfl
  | config =>
    show (match getAt h' [0, 2] with
      | some (.str n) => (V8.Dec.parseInt n).bind (fun c => groupPaths groups h' 0 c.toNat)
      | _ => none) = _
    rw [e1]
    simp only [groupPaths_congr e2 e3]
    rfl
  | extension =>
    show (match getAt h' [0, 2] with
      | some (.str n) => (V8.Dec.parseInt n).bind (fun c => groupPaths groups h' 0 c.toNat)
      | _ => none) = _
    rw [e1]
    simp only [groupPaths_congr e2 e3]
    rfl

/-! ### splash screen and brace files -/

/-- a splash screen that comes back (C52): missing, or a brace file with its data in the usual base64 -/
def ImageOk (win : Bool) (n : Option Node) : Prop :=
  n = none ∨ ∃ d, n = some (.file (braceFile win d)) ∧ d ≠ [] ∧ WFFile d ∧ CanonicalAt [0, 2, 0, 0] (rootVal d)

theorem imagesOut_shape {F : Text → Option Node} {u : Text} {o : Option (Text × Text)} {r : List (Place JT) × List (Place Bytes)}
    (h : imagesOut F u o = some r) : r.1.map (·.1) = o.toList.map (fun p => imageKey p.1) ∧ r.2.map (·.1) = o.toList.map (·.1) ∧
      ∀ n v, (n, some v) ∈ r.1 → v.WF := by
  cases o with
  | none =>
    simp only [imagesOut, Option.some.injEq] at h
    subst h
    exact ⟨rfl, rfl, fun _ _ h => by cases h⟩
  | some p =>
    obtain ⟨m, sfx⟩ := p
    simp only [imagesOut, Option.bind_eq_some_iff, Option.map_eq_some_iff] at h
    obtain ⟨f, _, ⟨i, v⟩, _, rfl⟩ := h
    refine ⟨rfl, rfl, ?_⟩
    intro n w hm
    rw [List.mem_singleton, Prod.mk.injEq] at hm
    cases v with
    | none => cases hm.2
    | some v => cases hm.2; exact jsonOf_wf v

theorem imagesIn_of (win : Bool) (F : Text → Option Node) (u : Text) (o : Option (Text × Text)) (r : List (Place JT) × List (Place Bytes))
    (S : Text → Option Bytes) (j : JT) (h : imagesOut F u o = some r) (hj : ∀ q ∈ r.1, entry j q.1 = q.2) (hS : ∀ q ∈ r.2, S q.1 = q.2)
    (hok : ∀ p, o = some p → ImageOk win (F (dot u p.2))) :
    imagesIn win S j u o = some (o.toList.map (fun p => (dot u p.2, F (dot u p.2)))) := by
  cases o with
  | none => rfl
  | some p =>
    obtain ⟨m, sfx⟩ := p
    simp only [imagesOut, Option.bind_eq_some_iff, Option.map_eq_some_iff] at h
    obtain ⟨f, hf, ⟨i, v⟩, hi, rfl⟩ := h
    have h1 : entry j (imageKey m) = v.map jsonOf := hj _ List.mem_cons_self
    have h2 : S m = i := hS _ List.mem_cons_self
    have hfield : imageField j m = some v := by
      unfold imageField
      rw [h1]
      cases v with
      | none => rfl
      | some v => simp only [Option.map_some, valOf_jsonOf]
    rw [imagesIn, hfield]
    simp only [Option.bind_some, h2]
    rcases hok _ rfl with hn | ⟨d, hn, hne, hd, hc⟩
    · simp only at hn
      unfold fileAt at hf
      rw [hn] at hf
      cases hf
      cases hi
      show some [(dot u sfx, none)] = some [(dot u sfx, F (dot u sfx))]
      rw [hn]
    · simp only at hn
      unfold fileAt at hf
      rw [hn] at hf
      cases hf
      rw [C52_image_partial tree (ser win) _ (rootVal d) i v hi (tree_file win d hne hd) (truthy_root d hne) hc, ser_root]
      show some [(dot u sfx, some (Node.file _))] = some [(dot u sfx, F (dot u sfx))]
      rw [hn]

theorem filesOut_shape {win : Bool} {k : Text} {F : Text → Option Node} {u : Text} : ∀ {l : List Text} {r : List (Place Bytes)},
    filesOut win k F u l = some r → r.map (·.1) = l.map (infoFile k)
  | [], r, h => by simp only [filesOut, Option.some.injEq] at h; subst h; rfl
  | n :: l, r, h => by
    simp only [filesOut, Option.bind_eq_some_iff, Option.map_eq_some_iff] at h
    obtain ⟨f, _, v, _, q, hq, rfl⟩ := h
    rw [List.map_cons, List.map_cons, filesOut_shape hq]

theorem jsonFile_of (w : Bool) (d : List (List Val)) : jsonFile (some (fileOf w (jsonOf (rootVal d)))) = some (some d) := by
  simp only [jsonFile, C58_round_trip _ _ (jsonOf_wf (rootVal d)), Option.bind_some, valOf_jsonOf, rootOf_rootVal, Option.map_some]

theorem filesIn_of (w win : Bool) (k : Text) (F : Text → Option Node) (u : Text) (S : Text → Option Bytes) : ∀ (l : List Text) (r : List (Place Bytes)),
    filesOut w k F u l = some r → (∀ q ∈ r, S q.1 = q.2) → (∀ n ∈ l, InfoOk win (F (dot u n))) →
    filesIn win k S u l = some (l.map (fun n => (dot u n, F (dot u n))))
  | [], _, _, _, _ => rfl
  | n :: l, r, h, hS, hok => by
    simp only [filesOut, Option.bind_eq_some_iff, Option.map_eq_some_iff] at h
    obtain ⟨f, hf, v, hv, q, hq, rfl⟩ := h
    have h1 : S (infoFile k n) = v.map (fun v => fileOf w (jsonOf v)) := hS _ List.mem_cons_self
    have ih := filesIn_of w win k F u S l q hq (fun x hx => hS x (List.mem_cons_of_mem _ hx)) (fun x hx => hok x (List.mem_cons_of_mem _ hx))
    rw [filesIn, h1, ih]
    rcases hok n List.mem_cons_self with hn | ⟨d, hn, hne, hd⟩
    · unfold fileAt at hf
      rw [hn] at hf
      cases hf
      cases hv
      simp only [Option.map_none, jsonFile, Option.bind_some, Option.map_some, List.map_cons, hn]
    · unfold fileAt at hf
      rw [hn] at hf
      cases hf
      rw [optTree, tree_file win d hne hd] at hv
      cases hv
      rw [Option.map_some, jsonFile_of]
      simp only [Option.bind_some, Option.map_some, List.map_cons, hn]

theorem infosOut_shape {F : Text → Option Node} {u : Text} : ∀ {l : List Text} {r : List (Place JT)},
    infosOut F u l = some r → r.map (·.1) = l.map infoEntry ∧ ∀ n v, (n, some v) ∈ r → v.WF
  | [], r, h => by
    simp only [infosOut, Option.some.injEq] at h
    subst h
    exact ⟨rfl, fun _ _ h => by cases h⟩
  | n :: l, r, h => by
    simp only [infosOut, Option.bind_eq_some_iff, Option.map_eq_some_iff] at h
    obtain ⟨v, _, q, hq, rfl⟩ := h
    obtain ⟨e1, e2⟩ := infosOut_shape hq
    refine ⟨by rw [List.map_cons, List.map_cons, e1], ?_⟩
    intro m w hm
    rcases List.mem_cons.mp hm with hm | hm
    · rw [Prod.mk.injEq] at hm
      cases v with
      | none => cases hm.2
      | some v => cases hm.2; exact jsonOf_wf v
    · exact e2 m w hm

theorem rootEntry_of (j : JT) (key : Text) (d : List (List Val)) (h : entry j key = some (jsonOf (rootVal d))) : rootEntry j key = some (some d) := by
  unfold rootEntry
  rw [h]
  simp only [valOf_jsonOf, Option.bind_some, rootOf_rootVal, Option.map_some]

theorem infosIn_of (win : Bool) (F : Text → Option Node) (u : Text) (j : JT) : ∀ (l : List Text) (r : List (Place JT)),
    infosOut F u l = some r → (∀ q ∈ r, entry j q.1 = q.2) → (∀ n ∈ l, InfoOk win (F (dot u n))) →
    infosIn win j u l = some (l.map (fun n => (dot u n, F (dot u n))))
  | [], _, _, _, _ => rfl
  | n :: l, r, h, hj, hok => by
    simp only [infosOut, Option.bind_eq_some_iff, Option.map_eq_some_iff] at h
    obtain ⟨v, hv, q, hq, rfl⟩ := h
    have h1 : entry j (infoEntry n) = v.map jsonOf := hj _ List.mem_cons_self
    have ih := infosIn_of win F u j l q hq (fun x hx => hj x (List.mem_cons_of_mem _ hx)) (fun x hx => hok x (List.mem_cons_of_mem _ hx))
    rw [infosIn, ih]
    rcases hok n List.mem_cons_self with hn | ⟨d, hn, hne, hd⟩
    · rw [hn] at hv
      cases hv
      unfold rootEntry
      rw [h1]
      simp only [Option.map_none, Option.bind_some, Option.map_some, List.map_cons, hn]
    · rw [hn] at hv
      simp only [fileOnly, optTree, tree_file win d hne hd, Option.map_some, Option.some.injEq] at hv
      subst hv
      rw [rootEntry_of j _ d h1]
      simp only [Option.bind_some, Option.map_some, List.map_cons, hn]

/-! ### all parts -/

/-- the entries the parts of a product have in the description -/
def partKeys (k : Kind) : List Text :=
  k.codes.flatMap (fun c => [infoKey c.1, encKey c.1]) ++ k.help.toList.map (fun _ => "help".toList) ++ k.image.toList.map (fun p => imageKey p.1) ++
    k.infos.map infoEntry

/-- the files of the parts in the sources -/
def partFiles (k : Kind) : List Text :=
  k.help.toList.flatMap (fun _ => [dot "help".toList "html".toList, dot "help".toList "bin".toList]) ++ k.image.toList.map (·.1) ++
    k.files.map (infoFile k.name) ++ k.codes.flatMap (fun c => [bslName k.name c.1, binName k.name c.1])

/-- the names of the parts in the container -/
def partNames (k : Kind) (u : Text) : List Text :=
  k.help.toList.map (dot u) ++ k.image.toList.map (fun p => dot u p.2) ++ k.files.map (dot u) ++ k.codes.map (fun c => dot u c.2)

/-- what is asked of the parts -/
structure PartsOk (win : Bool) (k : Kind) (dir : Bool) (F : Text → Option Node) (u : Text) : Prop where
  help : ∀ s, k.help = some s → PageOk win (F (dot u s))
  image : ∀ p, k.image = some p → ImageOk win (F (dot u p.2))
  files : ∀ n ∈ k.files, InfoOk win (F (dot u n))
  codes : ∀ c ∈ k.codes, CodeOk win dir (F (dot u c.2))
  infos : ∀ n ∈ k.infos, InfoOk win (F (dot u n))

theorem partsOut_shape {win : Bool} {k : Kind} {dir : Bool} {F : Text → Option Node} {u : Text} {r : List (Place JT) × List (Place Bytes)}
    (h : partsOut win k dir F u = some r) : r.1.map (·.1) = partKeys k ∧ r.2.map (·.1) = partFiles k ∧ ∀ n v, (n, some v) ∈ r.1 → v.WF := by
  unfold partsOut at h
  simp only [Option.bind_eq_some_iff, Option.map_eq_some_iff] at h
  obtain ⟨a, ha, b, hb, f, hf, c, hc, i, hi, rfl⟩ := h
  obtain ⟨a1, a2, a3⟩ := helpOut_shape ha
  obtain ⟨b1, b2, b3⟩ := imagesOut_shape hb
  obtain ⟨c1, c2, c3⟩ := codesOut_shape hc
  obtain ⟨i1, i2⟩ := infosOut_shape hi
  refine ⟨?_, ?_, ?_⟩
  · simp only [List.map_append, a1, b1, c1, i1, partKeys]
  · simp only [List.map_append, a2, b2, c2, filesOut_shape hf, partFiles]
  · intro n v hm
    rcases List.mem_append.mp hm with hm | hm
    · rcases List.mem_append.mp hm with hm | hm
      · rcases List.mem_append.mp hm with hm | hm
        · exact c3 n v hm
        · exact a3 n v hm
      · exact b3 n v hm
    · exact i2 n v hm

theorem partsIn_of (w win : Bool) (k : Kind) (dir : Bool) (F : Text → Option Node) (u : Text) (r : List (Place JT) × List (Place Bytes))
    (S : Text → Option Bytes) (j : JT) (h : partsOut w k dir F u = some r) (hj : ∀ q ∈ r.1, entry j q.1 = q.2) (hS : ∀ q ∈ r.2, S q.1 = q.2)
    (hok : PartsOk win k dir F u) :
    partsIn win k dir S j u = some ((partNames k u).map (fun n => (n, F n))) ∧
      infosIn win j u k.infos = some (k.infos.map (fun n => (dot u n, F (dot u n)))) := by
  unfold partsOut at h
  simp only [Option.bind_eq_some_iff, Option.map_eq_some_iff] at h
  obtain ⟨a, ha, b, hb, f, hf, c, hc, i, hi, rfl⟩ := h
  have hj1 : ∀ q ∈ c.1, entry j q.1 = q.2 := fun q hq => hj q (List.mem_append_left _ (List.mem_append_left _ (List.mem_append_left _ hq)))
  have hj2 : ∀ q ∈ a.1, entry j q.1 = q.2 := fun q hq => hj q (List.mem_append_left _ (List.mem_append_left _ (List.mem_append_right _ hq)))
  have hj3 : ∀ q ∈ b.1, entry j q.1 = q.2 := fun q hq => hj q (List.mem_append_left _ (List.mem_append_right _ hq))
  have hj4 : ∀ q ∈ i, entry j q.1 = q.2 := fun q hq => hj q (List.mem_append_right _ hq)
  have hS1 : ∀ q ∈ a.2, S q.1 = q.2 := fun q hq => hS q (List.mem_append_left _ (List.mem_append_left _ (List.mem_append_left _ hq)))
  have hS2 : ∀ q ∈ b.2, S q.1 = q.2 := fun q hq => hS q (List.mem_append_left _ (List.mem_append_left _ (List.mem_append_right _ hq)))
  have hS3 : ∀ q ∈ f, S q.1 = q.2 := fun q hq => hS q (List.mem_append_left _ (List.mem_append_right _ hq))
  have hS4 : ∀ q ∈ c.2, S q.1 = q.2 := fun q hq => hS q (List.mem_append_right _ hq)
  refine ⟨?_, infosIn_of win F u j _ _ hi hj4 hok.infos⟩
  unfold partsIn
  rw [helpIn_of win _ F u k.help a S j ha hj2 hS1 hok.help, imagesIn_of win F u k.image b S j hb hj3 hS2 hok.image,
    filesIn_of w win k.name F u S k.files f hf hS3 hok.files, codesIn_of w win dir k.name F u S j k.codes c hc hj1 hS4 hok.codes]
  simp only [Option.bind_some, Option.map_some, partNames, List.map_append, List.map_map]
  rfl

end V8.Root
