import Verif.Props.VersIndex
import Verif.Props.VersionsNeg
/-
C79, the build.
-/
namespace V8.VersIndex
open V8.Str V8.Enc V8.Dec V8.Code V8.Brace V8.Descent V8.Json V8.Index
open V8.Org (Sys Content World Item Write isCode isElem put puts clear txt texts forms tasks areasOf ModuleOk FormOk codeAreas elemAreas Ready)
open V8.OrgIndex (Tidy CleanEntry named NoOther target Job jobOf folder runJob runJobs indexJobs base entriesOf mem_entries packIndex_tidy entryFile entryFile_at)
open V8.Versions (Put Saves Views Listing stored Fit AreasOutside inside Good kept asWrite Stands packOne)

variable {V : Type}

theorem entryOf_iff (idx : D) (q : Dir) (k e : Text) : entryOf idx q k = some e ↔ e ≠ [] ∧ (J.obj idx).at (q ++ [k]) = some (.str e) := by
  unfold entryOf
  cases h : (J.obj idx).at (q ++ [k]) with
  | none => exact ⟨fun h => (by cases h), fun h => (by cases h.2)⟩
  | some v =>
    cases v with
    | str x =>
      simp only
      by_cases hx : x = []
      · rw [if_pos hx]
        constructor
        · intro h
          cases h
        · rintro ⟨h1, h2⟩
          injection h2 with h2
          injection h2 with h2
          exact absurd (h2.symm.trans hx) h1
      · rw [if_neg hx]
        constructor
        · intro h
          cases h
          exact ⟨hx, rfl⟩
        · rintro ⟨_, h2⟩
          injection h2 with h2
          injection h2 with h2
          rw [h2]
    | null => exact ⟨fun h => (by cases h), fun h => (by cases h.2)⟩
    | scalar _ => exact ⟨fun h => (by cases h), fun h => (by cases h.2)⟩
    | arr _ => exact ⟨fun h => (by cases h), fun h => (by cases h.2)⟩
    | obj _ => exact ⟨fun h => (by cases h), fun h => (by cases h.2)⟩

/-- the jobs of the index -/
theorem index_jobs {names : V → List Text} {s : Sys} {idx : D} {l : List (Item V)} {M : Dir → Text → List Code.Node}
    {E : Dir → Text → V8.Areas.Elems V} (ok : IndexFit names s idx l M E) (hdeep : s.deep = true) (cwd : Text → Option (List (Text × Bool))) :
    ∃ ix, indexJobs cwd s.src idx s.deep = some ix ∧
      ∀ j, j ∈ ix ↔ ∃ q k e, areasKey ∉ q ++ [k] ∧ entryOf idx q k = some e ∧ j = ⟨(q, k), named s.src.dropLast e⟩ := by
  have hix : indexJobs cwd s.src idx s.deep =
      some ((entriesOf idx).map (fun x => ⟨(x.1.dropLast, x.1.getLast?.getD []), entryFile s.src (x.1.getLast?.getD []) x.2 true⟩)) := by
    unfold indexJobs
    rw [hdeep, packIndex_tidy cwd idx [] [] ok.tidy, Option.map_some, List.map_map]
    rfl
  have hent := entryOf_iff idx
  refine ⟨_, hix, fun j => ?_⟩
  rw [List.mem_map]
  constructor
  · rintro ⟨⟨x, e⟩, hx, rfl⟩
    obtain ⟨h1, h2, h3, h4⟩ := (mem_entries idx ok.wf x e).mp hx
    have hxx : x.dropLast ++ [x.getLast?.getD []] = x := by
      rw [List.getLast?_eq_some_getLast h1, Option.getD_some, List.dropLast_concat_getLast h1]
    have h4' : (J.obj idx).at (x.dropLast ++ [x.getLast?.getD []]) = some (.str e) := by rw [hxx]; exact h4
    have h2' : areasKey ∉ x.dropLast ++ [x.getLast?.getD []] := by rw [hxx]; exact h2
    refine ⟨x.dropLast, x.getLast?.getD [], e, h2', (hent _ _ _).mpr ⟨h3, h4'⟩, ?_⟩
    simp only
    rw [entryFile_at true s.src ok.srcNe ok.srcPlain _ _ (ok.clean _ _ _ h2' h4' h3)]
    rfl
  · rintro ⟨q, k, e, h1, h2, rfl⟩
    obtain ⟨h2, h3⟩ := (hent _ _ _).mp h2
    refine ⟨(q ++ [k], e), (mem_entries idx ok.wf _ _).mpr ⟨by simp, h1, h2, h3⟩, ?_⟩
    simp only [List.dropLast_concat, List.getLast?_concat, Option.getD_some]
    rw [entryFile_at true s.src ok.srcNe ok.srcPlain _ _ (ok.clean _ _ _ h1 h3 h2)]
    rfl

/-- files of elements stay files of elements -/
theorem place_ext {names : V → List Text} {s : Sys} {idx : D} {d : Nat} {l : List (Item V)} {M : Dir → Text → List Code.Node} {E : Dir → Text → V8.Areas.Elems V}
    (ok : IndexFit names s idx l M E) (i : Item V) (hi : i ∈ l) (hk : isElem i.2.1 = true) : isElem (place s idx d i.1 i.2.1).2 = true := by
  unfold place
  cases h : entryOf idx i.1 i.2.1 with
  | none =>
    simp only [stored, hk, if_true]
  | some e => exact ok.ext i hi e h hk

/-- a file is built as it was from where it is -/
theorem run_place {names : V → List Text} {s : Sys} {idx : D} {d : Nat} {w : World V} {l : List (Item V)} {M : Dir → Text → List Code.Node} {E : Dir → Text → V8.Areas.Elems V}
    (rd : Ready names s w l M E) (ok : IndexFit names s idx l M E) {w' : World V} (h : Laid names s idx d w l M E w') (fuel : Nat) (i : Item V) (hi : i ∈ l)
    (hf : isCode i.2.1 = true → nodesDepth (M i.1 i.2.1) < fuel) : runJob names s w' fuel (jobOf (place s idx d) i) = some i.2.2 :=
  V8.OrgIndex.run_at rd i hi (place_ext ok i hi) (h.at_place i hi) h.area h.elemArea fuel hf

/-- a file of the source folder is built as it was -/
theorem pack_own {names : V → List Text} {s : Sys} {idx : D} {d : Nat} {w : World V} {l : List (Item V)} {M : Dir → Text → List Code.Node} {E : Dir → Text → V8.Areas.Elems V}
    (rd : Ready names s w l M E) (ok : IndexFit names s idx l M E) (fit : Fit s d (own idx l)) {w' : World V} (h : Laid names s idx d w l M E w')
    {view : Dir → Folder} (hv : Views s w' view) (d' : Nat) (hd : d ≤ d') (fuel : Nat) (i : Item V) (hi : i ∈ own idx l)
    (hf : isCode i.2.1 = true → nodesDepth (M i.1 i.2.1) < fuel) : packOne names s w' view d' fuel i.1 (some i.2.1) = some i.2.2 := by
  obtain ⟨hil, hen⟩ := mem_own.mp hi
  have hr := run_place rd ok h fuel i hil hf
  unfold runJob jobOf place at hr
  simp only [hen] at hr
  unfold packOne
  simp only
  rw [Versions.near_stored fit h.stands hv d' hd i hi, Option.bind_some]
  rcases Org.kind_cases i.2.1 with ⟨h1, h2⟩ | ⟨h1, h2⟩ | ⟨h1, h2⟩
  · rw [if_pos h1] at hr ⊢
    rw [Versions.stored_plain d _ h2] at hr ⊢
    rw [Versions.near_again fit h.stands hv d' i hi h1, Option.bind_some]
    exact hr
  · rw [if_neg (by rw [h1]; exact Bool.false_ne_true), if_pos h2] at hr ⊢
    exact hr
  · rw [if_neg (by rw [h1]; exact Bool.false_ne_true), if_neg (by rw [h2]; exact Bool.false_ne_true)] at hr ⊢
    exact hr

/-- no entry of the index is for a file that stays -/
theorem not_done {names : V → List Text} {s : Sys} {idx : D} {l : List (Item V)} {ix : List Job}
    (hmem : ∀ j, j ∈ ix ↔ ∃ q k e, areasKey ∉ q ++ [k] ∧ entryOf idx q k = some e ∧ j = ⟨(q, k), named s.src.dropLast e⟩)
    (i : Item V) (hi : i ∈ own idx l) : ix.any (fun j => !isQueued j.dest.2 && j.dest = (i.1, i.2.1)) = false := by
  rw [Bool.eq_false_iff]
  intro hany
  obtain ⟨j, hj, hjd⟩ := List.any_eq_true.mp hany
  rw [Bool.and_eq_true, decide_eq_true_eq] at hjd
  obtain ⟨q, k, e, _, h2, rfl⟩ := (hmem j).mp hj
  have hd : (q, k) = (i.1, i.2.1) := hjd.2
  injection hd with d1 d2
  rw [d1, d2, (mem_own.mp hi).2] at h2
  cases h2

theorem ownAll_mem {names : V → List Text} {s : Sys} {w : World V} {view : Dir → Folder} {d fuel : Nat} {ix : List Job} : ∀ (L : List (Dir × Option Text))
    (r : List ((Dir × Text) × Content V)), ownAll names s w view d fuel ix L = some r → ∀ x, x ∈ r ↔ ∃ f ∈ L, ∃ u, ownWrites names s w view d fuel ix f = some u ∧ x ∈ u := by
  intro L r h x
  unfold ownAll at h
  rw [Option.map_eq_some_iff] at h
  obtain ⟨us, hus, rfl⟩ := h
  have hm := mapM_mem _ _ _ hus
  rw [List.mem_flatten]
  constructor
  · rintro ⟨u, hu, hx⟩
    obtain ⟨f, hf, hw⟩ := hm.2 u hu
    exact ⟨f, hf, u, hw, hx⟩
  · rintro ⟨f, hf, u, hw, hx⟩
    obtain ⟨u', hu', hw'⟩ := hm.1 f hf
    rw [hw] at hw'
    cases hw'
    exact ⟨u, hu', hx⟩

/-- what is built of a name of the source folder -/
theorem own_one {names : V → List Text} {s : Sys} {idx : D} {d : Nat} {w : World V} {l : List (Item V)} {M : Dir → Text → List Code.Node} {E : Dir → Text → V8.Areas.Elems V}
    (rd : Ready names s w l M E) (ok : IndexFit names s idx l M E) (fit : Fit s d (own idx l)) {w' : World V} (h : Laid names s idx d w l M E w')
    {view : Dir → Folder} (hv : Views s w' view) (d' : Nat) (hd : d ≤ d') (fuel : Nat) {ix : List Job}
    (hmem : ∀ j, j ∈ ix ↔ ∃ q k e, areasKey ∉ q ++ [k] ∧ entryOf idx q k = some e ∧ j = ⟨(q, k), named s.src.dropLast e⟩) (i : Item V) (hi : i ∈ own idx l)
    (hf : isCode i.2.1 = true → nodesDepth (M i.1 i.2.1) < fuel) : ownWrites names s w' view d' fuel ix (i.1, some i.2.1) = some [((i.1, i.2.1), i.2.2)] := by
  unfold ownWrites
  simp only
  rw [if_neg (by rw [not_done (names := names) (s := s) hmem i hi]; exact Bool.false_ne_true), pack_own rd ok fit h hv d' hd fuel i hi hf]
  rfl

/-- the jobs of the index are for files of the product -/
theorem index_item {names : V → List Text} {s : Sys} {idx : D} {d : Nat} {l : List (Item V)} {M : Dir → Text → List Code.Node} {E : Dir → Text → V8.Areas.Elems V}
    (ok : IndexFit names s idx l M E) (hk : NoOther idx l) {ix : List Job}
    (hmem : ∀ j, j ∈ ix ↔ ∃ q k e, areasKey ∉ q ++ [k] ∧ entryOf idx q k = some e ∧ j = ⟨(q, k), named s.src.dropLast e⟩) (j : Job) :
    j ∈ ix ↔ ∃ i ∈ l, entryOf idx i.1 i.2.1 ≠ none ∧ j = jobOf (place s idx d) i := by
  rw [hmem]
  constructor
  · rintro ⟨q, k, e, h1, h2, rfl⟩
    have h3 := (entryOf_iff idx q k e).mp h2
    obtain ⟨c, hc⟩ := hk q k e h1 h3.2 h3.1
    refine ⟨_, hc, by rw [h2]; exact Option.some_ne_none _, ?_⟩
    unfold jobOf place
    simp only [h2]
  · rintro ⟨i, hi, hn, rfl⟩
    cases he : entryOf idx i.1 i.2.1 with
    | none => exact absurd he hn
    | some e =>
      refine ⟨i.1, i.2.1, e, (ok.paths i hi).2, he, ?_⟩
      unfold jobOf place
      simp only [he]

/-- everything a build writes -/
theorem packed_mem {names : V → List Text} {cwd : Text → Option (List (Text × Bool))} {s : Sys} {idx : D} {w : World V} {view : Dir → Folder}
    {ls : List (Dir × Option Text)} {d fuel : Nat} {b : Dir × Text → Option (Content V)} (h : Packed names cwd s idx w view ls d fuel b) :
    ∃ ix L, indexJobs cwd s.src idx s.deep = some ix ∧ b = folder L ∧ ∀ x, x ∈ L ↔
      (∃ j ∈ ix, runJob names s w fuel j = some x.2 ∧ x.1 = j.dest) ∨ ∃ f ∈ ls, ∃ u, ownWrites names s w view d fuel ix f = some u ∧ x ∈ u := by
  obtain ⟨ix, plainI, plain, codeI, code, elemI, elem, code', elem', h0, hn, h1, h2, h3, h4, h5, h6, p1, p2, rfl⟩ := h
  refine ⟨ix, _, h0, rfl, fun x => ?_⟩
  rw [List.mem_append, List.mem_append, List.mem_append, p1.mem_iff, p2.mem_iff, List.mem_append, List.mem_append, V8.OrgIndex.runJobs_mem _ _ h1,
    V8.OrgIndex.runJobs_mem _ _ h3, V8.OrgIndex.runJobs_mem _ _ h5, ownAll_mem _ _ h2, ownAll_mem _ _ h4, ownAll_mem _ _ h6]
  constructor
  · rintro (((⟨j, hj, g⟩ | ⟨f, hf, g⟩) | (⟨j, hj, g⟩ | ⟨f, hf, g⟩)) | (⟨j, hj, g⟩ | ⟨f, hf, g⟩))
    all_goals first
      | exact .inl ⟨j, (List.mem_filter.mp hj).1, g⟩
      | exact .inr ⟨f, (List.mem_filter.mp hf).1, g⟩
  · rintro (⟨j, hj, g⟩ | ⟨f, hf, g⟩)
    · rcases Org.kind_cases j.dest.2 with ⟨k1, k2⟩ | ⟨k1, k2⟩ | ⟨k1, k2⟩
      · exact .inl (.inr (.inl ⟨j, List.mem_filter.mpr ⟨hj, k1⟩, g⟩))
      · exact .inr (.inl ⟨j, List.mem_filter.mpr ⟨hj, k2⟩, g⟩)
      · exact .inl (.inl (.inl ⟨j, List.mem_filter.mpr ⟨hj, by simp only [k1, k2]; rfl⟩, g⟩))
    · cases hf2 : f.2 with
      | none => exact absurd hf2 (hn f hf)
      | some n =>
        have hkind : ∀ t, kindOf t f = t n := fun t => by unfold kindOf; rw [hf2]
        rcases Org.kind_cases n with ⟨k1, k2⟩ | ⟨k1, k2⟩ | ⟨k1, k2⟩
        · exact .inl (.inr (.inr ⟨f, List.mem_filter.mpr ⟨hf, by rw [hkind]; exact k1⟩, g⟩))
        · exact .inr (.inr ⟨f, List.mem_filter.mpr ⟨hf, by rw [hkind]; exact k2⟩, g⟩)
        · exact .inl (.inl (.inr ⟨f, List.mem_filter.mpr ⟨hf, by rw [hkind, k1, k2]; rfl⟩, g⟩))

/-- **C79.**  A folder extracted at version `d` with an index is put together by a build with that index at version `d`, or any later one, as it was: the same
files under the same paths, each with the same content - whatever was in the source folder or elsewhere before, for every order in which the files are listed
and the tasks run. -/
theorem C79_folder_back (names : V → List Text) (cwd : Text → Option (List (Text × Bool))) (s : Sys) (idx : D) (d : Nat) (w w' : World V) (l : List (Item V))
    (M : Dir → Text → List Code.Node) (E : Dir → Text → V8.Areas.Elems V) (rd : Ready names s w l M E) (ok : IndexFit names s idx l M E) (hk : NoOther idx l)
    (fit : Fit s d (own idx l)) (out : AreasOutside s l M) (h : Unpacked names s idx d w l w')
    (d' : Nat) (hd : d ≤ d') (view : Dir → Folder) (hv : Views s w' view) (ls : List (Dir × Option Text)) (hls : Listing s w' ls)
    (fuel : Nat) (hf : ∀ i ∈ l, isCode i.2.1 = true → nodesDepth (M i.1 i.2.1) < fuel) (b : Dir × Text → Option (Content V))
    (hb : Packed names cwd s idx w' view ls d' fuel b) : ∀ p n c, b (p, n) = some c ↔ (p, n, c) ∈ l := by
  have hl := laid rd ok fit out h
  have hin := Versions.listed fit hl.stands ls hls
  obtain ⟨ix, h0, hmem⟩ := index_jobs ok fit.deep cwd
  obtain ⟨ix', L, h0', rfl, hL⟩ := packed_mem hb
  rw [h0] at h0'
  cases h0'
  have hone := fun i hi => own_one rd ok fit hl hv d' hd fuel hmem i hi (hf i (mem_own.mp hi).1)
  have hx : ∀ x, x ∈ L ↔ (x.1.1, x.1.2, x.2) ∈ l := by
    intro x
    rw [hL]
    constructor
    · rintro (⟨j, hm, g1, g2⟩ | ⟨⟨p, y⟩, hm, u, g1, g2⟩)
      · obtain ⟨i, hi, _, rfl⟩ := (index_item (d := d) ok hk hmem j).mp hm
        rw [run_place rd ok hl fuel i hi (hf i hi)] at g1
        rw [g2, ← Option.some.inj g1]
        exact hi
      · obtain ⟨i, hi, rfl, rfl⟩ := (hin p y).mp hm
        rw [hone i hi] at g1
        cases g1
        rw [List.mem_singleton] at g2
        rw [g2]
        exact (mem_own.mp hi).1
    · intro hi
      cases he : entryOf idx x.1.1 x.1.2 with
      | some e =>
        left
        exact ⟨_, (index_item (d := d) ok hk hmem _).mpr ⟨_, hi, by rw [he]; exact Option.some_ne_none _, rfl⟩, run_place rd ok hl fuel _ hi (hf _ hi), rfl⟩
      | none =>
        right
        have ho : (x.1.1, x.1.2, x.2) ∈ own idx l := mem_own.mpr ⟨hi, he⟩
        exact ⟨(x.1.1, some x.1.2), (hin _ _).mpr ⟨_, ho, rfl, rfl⟩, _, hone _ ho, List.mem_singleton.mpr rfl⟩
  intro p n c
  constructor
  · intro hc
    exact (hx _).mp (V8.OrgIndex.folder_mem L _ c hc)
  · intro hc
    refine V8.OrgIndex.folder_some L _ c (fun x hm he => ?_) ⟨((p, n), c), (hx _).mpr hc, rfl⟩
    have hxl := (hx x).mp hm
    have := Org.item_eq rd.distinct hxl hc (by rw [he]) (by rw [he])
    injection this with _ this
    injection this

/-- **C79, where the files are.**  After an extraction at version `d` with an index, every file of the product is - less what went to the areas - in the file
its entry names, without a version, or in its own folder under the name with the version; the source folder holds no other file. -/
theorem C79_where (names : V → List Text) (s : Sys) (idx : D) (d : Nat) (w w' : World V) (l : List (Item V)) (M : Dir → Text → List Code.Node)
    (E : Dir → Text → V8.Areas.Elems V) (rd : Ready names s w l M E) (ok : IndexFit names s idx l M E) (fit : Fit s d (own idx l)) (out : AreasOutside s l M)
    (h : Unpacked names s idx d w l w') :
    (∀ i ∈ l, ∃ c, V8.OrgIndex.Own names s M E i c ∧ w' (place s idx d i.1 i.2.1) = some c) ∧
    ∀ p m, w' (s.src ++ p, m) ≠ none → ∃ i ∈ l, entryOf idx i.1 i.2.1 = none ∧ i.1 = p ∧ m = stored d i.2.1 := by
  have hl := laid rd ok fit out h
  refine ⟨hl.at_place, fun p m hm => ?_⟩
  obtain ⟨i, hi, h1, h2⟩ := hl.stands.only p m hm
  exact ⟨i, (mem_own.mp hi).1, (mem_own.mp hi).2, h1, h2⟩

/-- **C79, the rest.**  Extraction changes nothing outside the source folder but the files the index names for files of the product, and the files of the
areas. -/
theorem C79_outside (names : V → List Text) (s : Sys) (idx : D) (d : Nat) (w w' : World V) (l : List (Item V)) (M : Dir → Text → List Code.Node)
    (E : Dir → Text → V8.Areas.Elems V) (rd : Ready names s w l M E) (ok : IndexFit names s idx l M E) (fit : Fit s d (own idx l)) (out : AreasOutside s l M)
    (h : Unpacked names s idx d w l w') (f : Org.File) (hf : ¬ s.src <+: f.1) (h0 : ∀ i ∈ l, ∀ e, entryOf idx i.1 i.2.1 = some e → f ≠ named s.src.dropLast e)
    (h1 : f ∉ (codeAreas s M l).map (·.1)) (h2 : f ∉ (elemAreas names s E l).map (·.1)) : w' f = w f := by
  refine (laid rd ok fit out h).rest f hf (fun i hi he => ?_) h1 h2
  unfold place at he
  cases hen : entryOf idx i.1 i.2.1 with
  | none =>
    rw [hen] at he
    rw [he] at hf
    exact hf (List.prefix_append _ _)
  | some e =>
    rw [hen] at he
    exact h0 i hi e hen he

/-- **C79, any schedule.**  The files after extraction do not depend on the order in which the tasks look at the folder and write. -/
theorem C79_any_schedule (names : V → List Text) (s : Sys) (idx : D) (d : Nat) (w w1 w2 : World V) (l : List (Item V)) (M : Dir → Text → List Code.Node)
    (E : Dir → Text → V8.Areas.Elems V) (rd : Ready names s w l M E) (ok : IndexFit names s idx l M E) (fit : Fit s d (own idx l)) (out : AreasOutside s l M)
    (h1 : Unpacked names s idx d w l w1) (h2 : Unpacked names s idx d w l w2) : w1 = w2 := by
  have l1 := laid rd ok fit out h1
  have l2 := laid rd ok fit out h2
  funext f
  by_cases ht : ∃ i ∈ l, f = place s idx d i.1 i.2.1
  · obtain ⟨i, hi, rfl⟩ := ht
    obtain ⟨c1, o1, e1⟩ := l1.at_place i hi
    obtain ⟨c2, o2, e2⟩ := l2.at_place i hi
    rw [e1, e2, V8.OrgIndex.own_unique o1 o2]
  by_cases hf : s.src <+: f.1
  · obtain ⟨p, hp⟩ := hf
    obtain ⟨dir, n⟩ := f
    simp only at hp
    subst hp
    have key : ∀ v, Stands s d (own idx l) v → v (s.src ++ p, n) = none := by
      intro v hv
      refine Classical.byContradiction (fun hn => ?_)
      obtain ⟨i, hi, g1, g2⟩ := hv.only p n hn
      refine ht ⟨i, (mem_own.mp hi).1, ?_⟩
      unfold place
      rw [(mem_own.mp hi).2, g1, g2]
    rw [key _ l1.stands, key _ l2.stands]
  · have h0 : ∀ i ∈ l, f ≠ place s idx d i.1 i.2.1 := fun i hi e => ht ⟨i, hi, e⟩
    by_cases hc : f ∈ (codeAreas s M l).map (·.1)
    · obtain ⟨a, ha, rfl⟩ := List.mem_map.mp hc
      rw [l1.area a ha, l2.area a ha]
    · by_cases he : f ∈ (elemAreas names s E l).map (·.1)
      · obtain ⟨a, ha, rfl⟩ := List.mem_map.mp he
        rw [l1.elemArea a ha, l2.elemArea a ha]
      · rw [l1.rest f hf h0 hc he, l2.rest f hf h0 hc he]

/-- **C79, it runs.**  Neither the extraction nor a build at the same version or a later one fails, provided the elements of the forms can be divided. -/
theorem C79_runs (names : V → List Text) (cwd : Text → Option (List (Text × Bool))) (s : Sys) (idx : D) (d : Nat) (w : World V) (l : List (Item V))
    (M : Dir → Text → List Code.Node) (E : Dir → Text → V8.Areas.Elems V) (rd : Ready names s w l M E) (ok : IndexFit names s idx l M E) (hk : NoOther idx l)
    (fit : Fit s d (own idx l)) (out : AreasOutside s l M)
    (hd : ∀ i ∈ l, isElem i.2.1 = true → V8.Areas.areasOut names (E i.1 i.2.1).tree [] (E i.1 i.2.1).data ≠ none)
    (fuel : Nat) (hf : ∀ i ∈ l, isCode i.2.1 = true → nodesDepth (M i.1 i.2.1) < fuel) :
    (∃ w', Unpacked names s idx d w l w') ∧
    ∀ w', Unpacked names s idx d w l w' → (∃ view ls, Views s w' view ∧ Listing s w' ls) ∧
      ∀ view ls d', Views s w' view → Listing s w' ls → d ≤ d' → ∃ b, Packed names cwd s idx w' view ls d' fuel b := by
  have pl := placed rd fit.deep ok
  refine ⟨?_, fun w' hu => ⟨?_, ?_⟩⟩
  · obtain ⟨p, hp⟩ := Org.mapM_ex (plainPut s idx) (l.filter (fun i => !isCode i.2.1 && !isElem i.2.1)) (by
      intro i hi
      exact ⟨_, by unfold plainPut; rw [pl.home i (List.mem_filter.mp hi).1]; rfl⟩)
    obtain ⟨c, hc⟩ := Org.mapM_ex (codePuts s idx) (l.filter (fun i => isCode i.2.1)) (by
      intro i hi
      obtain ⟨h1, h2⟩ := List.mem_filter.mp hi
      obtain ⟨m1, m2⟩ := rd.module i h1 h2
      obtain ⟨u, hu, _⟩ := V8.OrgIndex.code_writes s idx i _ m1 m2 _ (pl.home i h1)
      rw [← code_same, Option.map_eq_some_iff] at hu
      obtain ⟨b, hb, _⟩ := hu
      exact ⟨b, hb⟩)
    obtain ⟨e, he⟩ := Org.mapM_ex (V8.OrgIndex.elemWrites names s idx) (l.filter (fun i => isElem i.2.1)) (by
      intro i hi
      obtain ⟨h1, h2⟩ := List.mem_filter.mp hi
      obtain ⟨m1, m2⟩ := rd.form i h1 h2
      have := hd i h1 h2
      unfold V8.OrgIndex.elemWrites
      rw [m1]
      cases ho : V8.Areas.areasOut names (E i.1 i.2.1).tree [] (E i.1 i.2.1).data with
      | none => exact absurd ho this
      | some q => exact ⟨_, by simp only [ho, Option.bind_some, pl.home i h1, Option.map_some]; rfl⟩)
    have hcode : ((l.filter (fun i => isCode i.2.1)).mapM (codePuts s idx)).map List.flatten = some c.flatten := by rw [hc]; rfl
    have hclear : ∀ p m, clear s w (s.src ++ p, m) = none := fun p m => if_pos (List.prefix_append _ _)
    obtain ⟨v0, h0, F0, s0, f0, i0⟩ := Versions.saves_ex fit false p (clear s w) [] []
      (fun p m => ⟨fun h => absurd (hclear p m) h, fun h => by cases h⟩) (fun p m h => absurd (hclear p m) h) (good_plain rd fit.deep ok p hp)
    obtain ⟨v, h, F, s1, f1, i1⟩ := Versions.saves_ex fit true c.flatten v0 [] F0 f0 i0 (good_code rd fit.deep ok out c.flatten hcode)
    exact ⟨puts v e.flatten, p, c.flatten, e.flatten, _, _, v0, h0, v, h, hp, hcode, by rw [tasks, he]; rfl, .refl _, .refl _, s0, s1, rfl⟩
  · have hl := laid rd ok fit out hu
    have hheld : Versions.Held s w' ((own idx l).map (fun i => (i.1, stored d i.2.1))) := by
      intro p m
      rw [List.mem_map]
      constructor
      · intro hm
        obtain ⟨i, hi, h1, h2⟩ := hl.stands.only p m hm
        exact ⟨i, hi, by rw [h1, h2]⟩
      · rintro ⟨i, hi, he⟩
        injection he with h1 h2
        rw [← h1, ← h2]
        exact hl.stands.some i hi
    refine ⟨fun p => Classical.choose (Versions.shows_ex s _ _ hheld p), (own idx l).map (fun i => (i.1, some i.2.1)),
      fun p => Classical.choose_spec (Versions.shows_ex s _ _ hheld p), fun p x => ?_⟩
    rw [List.mem_map]
    constructor
    · rintro ⟨i, hi, he⟩
      injection he with h1 h2
      subst h1
      refine ⟨⟨stored d i.2.1, hl.stands.some i hi, by rw [Versions.stored_removed fit i hi, h2]⟩, ?_⟩
      intro n hn q m
      rw [hn] at h2
      cases h2
      apply Classical.byContradiction
      intro hne
      rw [List.append_assoc] at hne
      obtain ⟨j, hj, j1, _⟩ := hl.stands.only _ m hne
      exact (fit.folders i hi j hj).1 ⟨q, by rw [j1, List.append_assoc]; rfl⟩
    · rintro ⟨⟨m, hm, hx⟩, _⟩
      obtain ⟨i, hi, h1, h2⟩ := hl.stands.only p m hm
      rw [h2, Versions.stored_removed fit i hi] at hx
      exact ⟨i, hi, by rw [h1, hx]⟩
  · intro view ls d' hv hls hd'
    have hl := laid rd ok fit out hu
    have hin := Versions.listed fit hl.stands ls hls
    obtain ⟨ix, h0, hmem⟩ := index_jobs ok fit.deep cwd
    have hrun : ∀ P : Job → Bool, ∃ r, runJobs names s w' fuel (ix.filter P) = some r := by
      intro P
      refine Org.mapM_ex _ _ (fun j hm => ?_)
      obtain ⟨i, hi, _, rfl⟩ := (index_item (d := d) ok hk hmem j).mp (List.mem_filter.mp hm).1
      exact ⟨_, by rw [run_place rd ok hl fuel i hi (hf i hi)]; rfl⟩
    have hown : ∀ P : Dir × Option Text → Bool, ∃ r, ownAll names s w' view d' fuel ix (ls.filter P) = some r := by
      intro P
      obtain ⟨r, hr⟩ := Org.mapM_ex (ownWrites names s w' view d' fuel ix) (ls.filter P) (by
        rintro ⟨p, x⟩ hm
        obtain ⟨i, hi, rfl, rfl⟩ := (hin p x).mp (List.mem_filter.mp hm).1
        exact ⟨_, own_one rd ok fit hl hv d' hd' fuel hmem i hi (hf i (mem_own.mp hi).1)⟩)
      exact ⟨r.flatten, by unfold ownAll; rw [hr]; rfl⟩
    obtain ⟨a1, ha1⟩ := hrun (fun j => !isCode j.dest.2 && !isElem j.dest.2)
    obtain ⟨b1, hb1⟩ := hrun (fun j => isCode j.dest.2)
    obtain ⟨c1, hc1⟩ := hrun (fun j => isElem j.dest.2)
    obtain ⟨a2, ha2⟩ := hown (kindOf (fun n => !isCode n && !isElem n))
    obtain ⟨b2, hb2⟩ := hown (kindOf isCode)
    obtain ⟨c2, hc2⟩ := hown (kindOf isElem)
    refine ⟨_, ix, a1, a2, b1, b2, c1, c2, _, _, h0, ?_, ha1, ha2, hb1, hb2, hc1, hc2, .refl _, .refl _, rfl⟩
    rintro ⟨p, x⟩ hm
    obtain ⟨i, _, _, rfl⟩ := (hin p x).mp hm
    exact Option.some_ne_none _

end V8.VersIndex
