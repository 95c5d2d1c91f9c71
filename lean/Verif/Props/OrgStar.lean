import Verif.OrgStarLemmas
/-
C77: a folder with an index that has `*` entries.  What extraction moves into the folder of a `*` entry is what the build takes from there.
-/
namespace V8.OrgIndex
open V8.Str V8.Enc V8.Code V8.Brace V8.Json V8.Index
open V8.Org (Sys Content World Item Write isCode isElem puts clear txt texts forms tasks Listing areasOf ModuleOk FormOk codeAreas elemAreas Ready)

variable {V : Type}

/-! ### specification -/

/-- an index with `*` entries that fits a folder `l` -/
structure StarOk (names : V → List Text) (s : Sys) (idx : D) (l : List (Item V)) (M : Dir → Text → List Code.Node) (E : Dir → Text → V8.Areas.Elems V) : Prop where
  /-- no version is given -/
  flat : s.deep = false
  wf : idx.WF
  tidy : TidyStar idx
  srcNe : s.src ≠ []
  srcPlain : ∀ c ∈ s.src, V8.Path.Plain c
  paths : ∀ i ∈ l, (∀ c ∈ i.1 ++ [i.2.1], V8.Path.Plain c) ∧ areasKey ∉ i.1 ++ [i.2.1]
  /-- every entry names a file, every `*` entry a folder -/
  clean : ∀ q k e, areasKey ∉ q ++ [k] → (J.obj idx).at (q ++ [k]) = some (.str e) → e ≠ [] → k ≠ ['*'] → CleanEntry e
  cleanStar : ∀ q f, (J.obj idx).at (q ++ [['*']]) = some (.str f) → CleanFolder f
  /-- files of the product are no folders of the index, folders of the product no files of the index -/
  file : ∀ i ∈ l, ∀ v, (J.obj idx).at (i.1 ++ [i.2.1]) = some v → v = .null ∨ ∃ e, v = .str e
  way : ∀ i ∈ l, ∀ q, q <+: i.1 → (J.obj idx).at q = none ∨ ∃ d, (J.obj idx).at q = some (.obj d)
  /-- no file or folder of the product is called `*` -/
  noStar : ∀ i ∈ l, ['*'] ∉ i.1 ++ [i.2.1]
  /-- the entries are for files outside the source folder -/
  outside : ∀ i ∈ l, starTarget s.src idx i.1 i.2.1 = (s.src ++ i.1, i.2.1) ∨ ¬ s.src <+: (starTarget s.src idx i.1 i.2.1).1
  /-- no two files of the product belong to the same place, and none to that of an area -/
  once : ∀ i ∈ l, ∀ j ∈ l, starTarget s.src idx i.1 i.2.1 = starTarget s.src idx j.1 j.2.1 → i.1 = j.1 ∧ i.2.1 = j.2.1
  free : ∀ i ∈ l, ∀ a ∈ codeAreas s M l, starTarget s.src idx i.1 i.2.1 ≠ a.1
  freeElems : ∀ i ∈ l, ∀ a ∈ elemAreas names s E l, starTarget s.src idx i.1 i.2.1 ≠ a.1
  /-- files of elements stay files of elements -/
  ext : ∀ i ∈ l, isElem i.2.1 = true → isElem (starTarget s.src idx i.1 i.2.1).2 = true
  /-- the folders of the `*` entries are outside the source folder, and no area is in them -/
  away : ∀ q f, areasKey ∉ q → (J.obj idx).at (q ++ [['*']]) = some (.str f) → ¬ s.src <+: starFolder s.src f ∧
    (∀ a ∈ codeAreas s M l, a.1.1 ≠ starFolder s.src f) ∧ (∀ a ∈ elemAreas names s E l, a.1.1 ≠ starFolder s.src f)

/-- the files in the folder of a `*` entry: only those of the product which the entry is for -/
def Only (s : Sys) (idx : D) (w : World V) (l : List (Item V)) : Prop :=
  ∀ q f, areasKey ∉ q → (J.obj idx).at (q ++ [['*']]) = some (.str f) → ∀ n, w (starFolder s.src f, n) ≠ none →
    (J.obj idx).at (q ++ [n]) = none ∧ ∃ c, (q, n, c) ∈ l

/-- no entry moves a file of the product into a folder of a `*` entry that is not for it -/
def Alone (s : Sys) (idx : D) (l : List (Item V)) : Prop :=
  ∀ q f, areasKey ∉ q → (J.obj idx).at (q ++ [['*']]) = some (.str f) → ∀ i ∈ l, (starTarget s.src idx i.1 i.2.1).1 = starFolder s.src f →
    i.1 = q ∧ (J.obj idx).at (i.1 ++ [i.2.1]) = none

/-- the index has entries of their own only for files of the product -/
def NoOtherStar (idx : D) (l : List (Item V)) : Prop :=
  ∀ q k e, areasKey ∉ q ++ [k] → (J.obj idx).at (q ++ [k]) = some (.str e) → e ≠ [] → k ≠ ['*'] → ∃ c, (q, k, c) ∈ l

/-- the program is run from the folder around the source folder: the path of a `*` entry, looked up from the current folder (`os.listdir(all_path)`,
organizer_file.py:212), is the folder the entry names; a folder without files need not exist -/
def Around (cwd : Text → Option (List (Text × Bool))) (s : Sys) (idx : D) (w : World V) : Prop :=
  ∀ q f, areasKey ∉ q → (J.obj idx).at (q ++ [['*']]) = some (.str f) → ∀ n,
    (∃ names, cwd f = some names ∧ (n, true) ∈ names) ↔ w (starFolder s.src f, n) ≠ none

/-! ### proofs -/

theorem tidy_star : ∀ (d : D), TidyStar d → ∀ q v, areasKey ∉ q → (J.obj d).at (q ++ [['*']]) = some v → ∃ f, v = .str f ∧ f ≠ []
  | .nil, _, q, v, _, h => by
    cases q with
    | nil => rw [List.nil_append, at_obj] at h; cases h
    | cons k r => rw [List.cons_append, at_obj] at h; cases h
  | .cons k x r, ht, q, v, hq, h => by
    rw [TidyStar] at ht
    have ih := tidy_star r ht.2 q v hq
    cases q with
    | nil =>
      rw [List.nil_append, at_obj, D.get] at h
      by_cases hk : k = ['*']
      · rw [if_pos hk, Option.bind_some, at_nil] at h
        cases h
        rcases ht.1 with h1 | ⟨h1, _⟩ | ⟨_, h1⟩
        · rw [hk] at h1; exact absurd h1 (by decide)
        · rw [hk] at h1; exact absurd h1 (by decide)
        · exact h1
      · rw [if_neg hk] at h
        exact ih (by rw [List.nil_append, at_obj]; exact h)
    | cons a b =>
      rw [List.cons_append, at_obj, D.get] at h
      by_cases hk : k = a
      · rw [if_pos hk, Option.bind_some] at h
        have hleaf : (∀ d, x ≠ .obj d) → False := by
          intro hx
          cases hb : b ++ [['*']] with
          | nil => exact absurd hb (by simp)
          | cons c t => rw [hb, at_leaf x hx] at h; cases h
        rcases ht.1 with h1 | ⟨_, h1⟩ | ⟨_, f, h1, _⟩
        · exact absurd (h1 ▸ hk ▸ List.mem_cons_self) hq
        · cases hx : x with
          | obj d =>
            rw [hx, TidyStarV] at h1
            rw [hx] at h
            exact tidy_star d h1 b v (fun hm => hq (List.mem_cons_of_mem _ hm)) h
          | _ => exact absurd (hleaf (by rw [hx]; rintro _ ⟨⟩)) id
        · exact absurd (hleaf (by rw [h1]; rintro _ ⟨⟩)) id
      · rw [if_neg hk] at h
        exact ih (by rw [List.cons_append, at_obj]; exact h)
termination_by d => sizeOf d

theorem star_own {src : Dir} {idx : D} {q : Dir} {n f : Text} (h1 : (J.obj idx).at (q ++ [n]) = none)
    (h2 : (J.obj idx).at (q ++ [['*']]) = some (.str f)) : starTarget src idx q n = (starFolder src f, n) := by
  unfold starTarget
  rw [h1, h2]

theorem star_named {src : Dir} {idx : D} {q : Dir} {k e : Text} (h1 : (J.obj idx).at (q ++ [k]) = some (.str e)) (h2 : e ≠ []) :
    starTarget src idx q k = named src e := by
  unfold starTarget
  rw [h1]
  simp only [if_neg h2]

theorem areas_path {names : V → List Text} {s : Sys} {idx : D} {l : List (Item V)} {M : Dir → Text → List Code.Node} {E : Dir → Text → V8.Areas.Elems V}
    (ok : StarOk names s idx l M E) (i : Item V) (hi : i ∈ l) : areasKey ∉ i.1 := fun hm => (ok.paths i hi).2 (List.mem_append_left _ hm)

theorem StarOk.placed {names : V → List Text} {s : Sys} {idx : D} {l : List (Item V)} {M : Dir → Text → List Code.Node} {E : Dir → Text → V8.Areas.Elems V}
    (ok : StarOk names s idx l M E) : Placed names s idx (starTarget s.src idx) l M E := by
  refine ⟨fun i hi => ?_, ok.outside, ok.once, ok.free, ok.freeElems, ok.ext⟩
  rw [ok.flat]
  refine home_star s.src idx ok.srcPlain i.1 (fun c hc => (ok.paths i hi).1 c (List.mem_append_left _ hc)) i.2.1
    ((ok.paths i hi).1 _ (List.mem_append_right _ (List.mem_singleton.mpr rfl))) ?_ (ok.file i hi) ?_ (ok.way i hi)
  · intro e he hne
    exact ok.clean i.1 i.2.1 e (ok.paths i hi).2 he hne (fun h => ok.noStar i hi (h ▸ List.mem_append_right _ (List.mem_singleton.mpr rfl)))
  · intro v hv
    obtain ⟨f, rfl, _⟩ := tidy_star idx ok.tidy i.1 v (areas_path ok i hi) hv
    exact ⟨f, rfl, ok.cleanStar _ f hv⟩

/-- the jobs of the index -/
theorem star_jobs {names : V → List Text} {s : Sys} {idx : D} {l : List (Item V)} {M : Dir → Text → List Code.Node}
    {E : Dir → Text → V8.Areas.Elems V} (ok : StarOk names s idx l M E) (cwd : Text → Option (List (Text × Bool))) :
    ∃ ix, indexJobs cwd s.src idx = some ix ∧
      (∀ j ∈ ix, (∃ q k e, areasKey ∉ q ++ [k] ∧ e ≠ [] ∧ k ≠ ['*'] ∧ (J.obj idx).at (q ++ [k]) = some (.str e) ∧ j = ⟨(q, k), named s.src e⟩) ∨
        ∃ q f nl n, areasKey ∉ q ∧ (J.obj idx).at (q ++ [['*']]) = some (.str f) ∧ cwd f = some nl ∧ (n, true) ∈ nl ∧
          j = ⟨(q, n), entryFile s.src n (pjoin f n)⟩) ∧
      (∀ q k e, areasKey ∉ q ++ [k] → e ≠ [] → k ≠ ['*'] → (J.obj idx).at (q ++ [k]) = some (.str e) → (⟨(q, k), named s.src e⟩ : Job) ∈ ix) ∧
      (∀ q f nl n, areasKey ∉ q → (J.obj idx).at (q ++ [['*']]) = some (.str f) → cwd f = some nl → (n, true) ∈ nl →
        (∀ e, (J.obj idx).at (q ++ [n]) = some (.str e) → e = []) → (⟨(q, n), entryFile s.src n (pjoin f n)⟩ : Job) ∈ ix) := by
  obtain ⟨ops, h1, h2⟩ := packIndex_star cwd idx [] [] ok.wf ok.tidy
  have hix : indexJobs cwd s.src idx = some (ops.map (fun o => ⟨o.dest, entryFile s.src o.dest.2 o.content⟩)) := by
    unfold indexJobs
    rw [h1]
    rfl
  refine ⟨_, hix, ?_, ?_, ?_⟩
  · intro j hj
    obtain ⟨o, ho, rfl⟩ := List.mem_map.mp hj
    obtain ⟨⟨x, e⟩, hx, hh⟩ := h2.only o ho
    obtain ⟨a1, a2, a3, a4⟩ := (mem_entries idx ok.wf x e).mp hx
    have hxx : x.dropLast ++ [lastKey (x, e)] = x := by
      unfold lastKey
      rw [List.getLast?_eq_some_getLast a1, Option.getD_some, List.dropLast_concat_getLast a1]
    have a4' : (J.obj idx).at (x.dropLast ++ [lastKey (x, e)]) = some (.str e) := by rw [hxx]; exact a4
    have a2' : areasKey ∉ x.dropLast ++ [lastKey (x, e)] := by rw [hxx]; exact a2
    rcases hh with ⟨g1, rfl⟩ | ⟨g1, nl, n, g2, g3, rfl⟩
    · left
      refine ⟨x.dropLast, lastKey (x, e), e, a2', a3, g1, a4', ?_⟩
      show (⟨([] ++ x.dropLast, _), entryFile s.src (lastKey (x, e)) e⟩ : Job) = _
      rw [entryFile_eq s.src ok.srcNe ok.srcPlain _ _ (ok.clean _ _ _ a2' a4' a3 g1)]
      rfl
    · right
      rw [g1] at a4' a2'
      exact ⟨x.dropLast, e, nl, n, fun hm => a2' (List.mem_append_left _ hm), a4', g2, g3, rfl⟩
  · intro q k e b1 b2 b3 b4
    have hm := (mem_entries idx ok.wf (q ++ [k]) e).mpr ⟨by simp, b1, b2, b4⟩
    have hlk : lastKey (q ++ [k], e) = k := by simp [lastKey]
    have := h2.exact _ hm (by rw [hlk]; exact b3)
    refine List.mem_map.mpr ⟨_, this, ?_⟩
    show (⟨([] ++ (q ++ [k]).dropLast, lastKey (q ++ [k], e)), entryFile s.src (lastKey (q ++ [k], e)) e⟩ : Job) = _
    rw [hlk, List.dropLast_concat, entryFile_eq s.src ok.srcNe ok.srcPlain _ _ (ok.clean _ _ _ b1 b4 b2 b3)]
    rfl
  · intro q f nl n b1 b2 b3 b4 b5
    obtain ⟨f', hf', hne⟩ := tidy_star idx ok.tidy q _ b1 b2
    cases hf'
    have hm := (mem_entries idx ok.wf (q ++ [['*']]) f).mpr ⟨by simp, by
      intro hm
      rcases List.mem_append.mp hm with hm | hm
      · exact b1 hm
      · exact absurd (List.mem_singleton.mp hm) (by decide), hne, b2⟩
    have hlk : lastKey (q ++ [['*']], f) = ['*'] := by simp [lastKey]
    have := h2.star _ hm hlk nl n b3 b4 (fun _ => List.not_mem_nil) (by simp only [List.dropLast_concat]; exact b5)
    refine List.mem_map.mpr ⟨_, this, ?_⟩
    show (⟨([] ++ (q ++ [['*']]).dropLast, n), entryFile s.src n (pjoin f n)⟩ : Job) = _
    rw [List.dropLast_concat]
    rfl

theorem star_file {names : V → List Text} {s : Sys} {idx : D} {l : List (Item V)} {M : Dir → Text → List Code.Node} {E : Dir → Text → V8.Areas.Elems V}
    (ok : StarOk names s idx l M E) {q : Dir} {f n : Text} (h : (J.obj idx).at (q ++ [['*']]) = some (.str f)) (hn : V8.Path.Plain n) :
    entryFile s.src n (pjoin f n) = (starFolder s.src f, n) := by
  rw [entryFile_eq s.src ok.srcNe ok.srcPlain _ _ (folder_entry (ok.cleanStar q f h) hn), folder_named s.src (ok.cleanStar q f h) hn]

/-- after extraction the folders of the `*` entries still have only files of the product -/
theorem only_after {names : V → List Text} {s : Sys} {idx : D} {w w' : World V} {l : List (Item V)} {M : Dir → Text → List Code.Node} {E : Dir → Text → V8.Areas.Elems V}
    (ok : StarOk names s idx l M E) (ha : Alone s idx l) (ho : Only s idx w l) (h : Laid names s (starTarget s.src idx) w l M E w') : Only s idx w' l := by
  intro q f hq hf n hn
  by_cases ht : ∃ i ∈ l, (starFolder s.src f, n) = starTarget s.src idx i.1 i.2.1
  · obtain ⟨i, hi, he⟩ := ht
    obtain ⟨e1, e2⟩ := ha q f hq hf i hi (by rw [← he])
    rw [e1] at e2 he
    rw [star_own e2 hf] at he
    injection he with _ he
    obtain ⟨p, m, c⟩ := i
    simp only at e1 he e2
    subst e1; subst he
    exact ⟨e2, c, hi⟩
  · obtain ⟨a1, a2, a3⟩ := ok.away q f hq hf
    rw [h.rest (starFolder s.src f, n) a1 (fun i hi e => ht ⟨i, hi, e⟩) (fun hm => by
      obtain ⟨a, h1, h2⟩ := List.mem_map.mp hm
      exact a2 a h1 (congrArg Prod.fst h2)) (fun hm => by
      obtain ⟨a, h1, h2⟩ := List.mem_map.mp hm
      exact a3 a h1 (congrArg Prod.fst h2))] at hn
    exact ho q f hq hf n hn

/-- the jobs are those of the files of the product, whether the index, a folder of a `*` entry or the source folder has them -/
theorem jobs_star {names : V → List Text} {cwd : Text → Option (List (Text × Bool))} {s : Sys} {idx : D} {w w' : World V} {l : List (Item V)}
    {M : Dir → Text → List Code.Node} {E : Dir → Text → V8.Areas.Elems V} (ok : StarOk names s idx l M E) (hk : NoOtherStar idx l) (ha : Alone s idx l)
    (ho : Only s idx w l) (h : Laid names s (starTarget s.src idx) w l M E w') (hc : Around cwd s idx w') (ls : List (Dir × Text)) (hls : Listing s w' ls) :
    ∃ ix, indexJobs cwd s.src idx = some ix ∧ ∀ j, j ∈ ix ++ ownJobs s.src ix ls ↔ ∃ i ∈ l, j = jobOf (starTarget s.src idx) i := by
  obtain ⟨ix, hix, h1, h2, h3⟩ := star_jobs ok cwd
  have hon := only_after ok ha ho h
  have hplain : ∀ q n c, (q, n, c) ∈ l → V8.Path.Plain n := fun q n c hi => (ok.paths _ hi).1 n (List.mem_append_right _ (List.mem_singleton.mpr rfl))
  refine ⟨ix, hix, fun j => ?_⟩
  rw [List.mem_append]
  constructor
  · rintro (hj | hj)
    · rcases h1 j hj with ⟨q, k, e, a1, a2, a3, a4, rfl⟩ | ⟨q, f, nl, n, a1, a2, a3, a4, rfl⟩
      · obtain ⟨c, hi⟩ := hk q k e a1 a4 a2 a3
        exact ⟨_, hi, by rw [jobOf, star_named a4 a2]⟩
      · obtain ⟨e1, c, hi⟩ := hon q f a1 a2 n ((hc q f a1 a2 n).mp ⟨nl, a3, a4⟩)
        exact ⟨_, hi, by rw [jobOf, star_own e1 a2, star_file ok a2 (hplain _ _ _ hi)]⟩
    · obtain ⟨f, hf, rfl⟩ := List.mem_map.mp hj
      obtain ⟨c, hi, ht⟩ := h.only f.1 f.2 ((hls f.1 f.2).mp (List.mem_filter.mp hf).1)
      exact ⟨_, hi, by rw [jobOf, ht]⟩
  · rintro ⟨i, hi, rfl⟩
    have hns : i.2.1 ≠ ['*'] := fun e => ok.noStar i hi (e ▸ List.mem_append_right _ (List.mem_singleton.mpr rfl))
    have hap := areas_path ok i hi
    obtain ⟨c0, _, hw0⟩ := h.own i hi
    by_cases he : ∃ e, (J.obj idx).at (i.1 ++ [i.2.1]) = some (.str e) ∧ e ≠ []
    · obtain ⟨e, e1, e2⟩ := he
      left
      rw [jobOf, star_named e1 e2]
      exact h2 _ _ e (ok.paths i hi).2 e2 hns e1
    by_cases hs : (J.obj idx).at (i.1 ++ [i.2.1]) = none ∧ ∃ f, (J.obj idx).at (i.1 ++ [['*']]) = some (.str f)
    · obtain ⟨e1, f, e2⟩ := hs
      left
      rw [star_own e1 e2] at hw0
      obtain ⟨nl, n1, n2⟩ := (hc i.1 f hap e2 i.2.1).mpr (by rw [hw0]; exact Option.some_ne_none _)
      rw [jobOf, star_own e1 e2, ← star_file ok e2 (hplain _ _ _ hi)]
      exact h3 _ f nl _ hap e2 n1 n2 (fun e he => by rw [e1] at he; cases he)
    · right
      have ht : starTarget s.src idx i.1 i.2.1 = (s.src ++ i.1, i.2.1) := by
        unfold starTarget
        cases hv : (J.obj idx).at (i.1 ++ [i.2.1]) with
        | none =>
          cases hv2 : (J.obj idx).at (i.1 ++ [['*']]) with
          | none => rfl
          | some v =>
            obtain ⟨f, rfl, _⟩ := tidy_star idx ok.tidy i.1 v hap hv2
            exact absurd ⟨hv, f, hv2⟩ hs
        | some v =>
          rcases ok.file i hi v hv with rfl | ⟨e, rfl⟩
          · rfl
          · by_cases h0 : e = []
            · simp only [if_pos h0]
            · exact absurd ⟨e, hv, h0⟩ he
      rw [ht] at hw0
      refine List.mem_map.mpr ⟨(i.1, i.2.1), List.mem_filter.mpr ⟨?_, ?_⟩, by rw [jobOf, ht]⟩
      · exact (hls _ _).mpr (by rw [hw0]; exact Option.some_ne_none _)
      · rw [Bool.not_eq_true', Bool.eq_false_iff]
        intro hany
        obtain ⟨j, hj, hjd⟩ := List.any_eq_true.mp hany
        rw [Bool.and_eq_true, decide_eq_true_eq] at hjd
        rcases h1 j hj with ⟨q, k, e, a1, a2, a3, a4, rfl⟩ | ⟨q, f, nl, n, a1, a2, a3, a4, rfl⟩
        · have hd : (q, k) = (i.1, i.2.1) := hjd.2
          injection hd with d1 d2
          rw [d1, d2] at a4
          exact he ⟨e, a4, a2⟩
        · have hd : (q, n) = (i.1, i.2.1) := hjd.2
          injection hd with d1 d2
          subst d1; subst d2
          obtain ⟨e1, _⟩ := hon _ f a1 a2 _ ((hc _ f a1 a2 _).mp ⟨nl, a3, a4⟩)
          exact hs ⟨e1, f, a2⟩

/-- **C77.**  A folder laid out by an extraction whose index has `*` entries is put together by the build with that index as it was, provided the build is run
from the folder around the sources, and the folders of the `*` entries have no files but those of the product that the entries are for. -/
theorem C77_folder_back (names : V → List Text) (cwd : Text → Option (List (Text × Bool))) (s : Sys) (idx : D) (w w' : World V) (l : List (Item V))
    (M : Dir → Text → List Code.Node) (E : Dir → Text → V8.Areas.Elems V) (rd : Ready names s w l M E) (ok : StarOk names s idx l M E) (hk : NoOtherStar idx l)
    (ha : Alone s idx l) (ho : Only s idx w l) (h : Unpacked names s idx w l w') (hc : Around cwd s idx w') (ls : List (Dir × Text)) (hls : Listing s w' ls)
    (fuel : Nat) (hf : ∀ i ∈ l, isCode i.2.1 = true → nodesDepth (M i.1 i.2.1) < fuel) (d : Dir × Text → Option (Content V))
    (hd : Packed names cwd s idx w' ls fuel d) : ∀ p n c, d (p, n) = some c ↔ (p, n, c) ∈ l := by
  have hl := laid_at rd ok.placed h
  obtain ⟨ix', h0', hj⟩ := jobs_star ok hk ha ho hl hc ls hls
  exact back_at rd ok.placed hl hf h0' hj hd

/-- **C77, where the files go.**  After the extraction every file of the product is in the file of its own entry, else in the folder of the `*` entry beside
it, else at its own path in the source folder, less what went to the areas; nothing else outside the source folder changes but the files of the areas. -/
theorem C77_where (names : V → List Text) (s : Sys) (idx : D) (w w' : World V) (l : List (Item V)) (M : Dir → Text → List Code.Node)
    (E : Dir → Text → V8.Areas.Elems V) (rd : Ready names s w l M E) (ok : StarOk names s idx l M E) (h : Unpacked names s idx w l w') :
    (∀ i ∈ l, ∃ c, Own names s M E i c ∧ w' (starTarget s.src idx i.1 i.2.1) = some c) ∧
    (∀ f, ¬ s.src <+: f.1 → (∀ i ∈ l, f ≠ starTarget s.src idx i.1 i.2.1) → f ∉ (codeAreas s M l).map (·.1) → f ∉ (elemAreas names s E l).map (·.1) → w' f = w f) ∧
    ∀ p n, w' (s.src ++ p, n) ≠ none → ∃ c, (p, n, c) ∈ l ∧ starTarget s.src idx p n = (s.src ++ p, n) :=
  ⟨(laid_at rd ok.placed h).own, (laid_at rd ok.placed h).rest, (laid_at rd ok.placed h).only⟩

/-- **C77, any schedule.**  The files after extraction do not depend on the order in which the tasks write. -/
theorem C77_any_schedule (names : V → List Text) (s : Sys) (idx : D) (w w1 w2 : World V) (l : List (Item V)) (M : Dir → Text → List Code.Node)
    (E : Dir → Text → V8.Areas.Elems V) (rd : Ready names s w l M E) (ok : StarOk names s idx l M E) (h1 : Unpacked names s idx w l w1)
    (h2 : Unpacked names s idx w l w2) : w1 = w2 := schedule_at (laid_at rd ok.placed h1) (laid_at rd ok.placed h2)

/-- **C77, it runs.**  Neither the extraction nor the build fails, provided the elements of the forms can be divided. -/
theorem C77_runs (names : V → List Text) (s : Sys) (idx : D) (w : World V) (l : List (Item V))
    (M : Dir → Text → List Code.Node) (E : Dir → Text → V8.Areas.Elems V) (rd : Ready names s w l M E) (ok : StarOk names s idx l M E) (hk : NoOtherStar idx l)
    (ha : Alone s idx l) (ho : Only s idx w l)
    (hd : ∀ i ∈ l, isElem i.2.1 = true → V8.Areas.areasOut names (E i.1 i.2.1).tree [] (E i.1 i.2.1).data ≠ none) (fuel : Nat)
    (hf : ∀ i ∈ l, isCode i.2.1 = true → nodesDepth (M i.1 i.2.1) < fuel) :
    (∃ w', Unpacked names s idx w l w') ∧
    ∀ w', Unpacked names s idx w l w' → (∃ ls, Listing s w' ls) ∧
      ∀ cwd ls, Around cwd s idx w' → Listing s w' ls → ∃ d, Packed names cwd s idx w' ls fuel d := by
  refine ⟨unpack_at rd ok.placed hd, fun w' hu => ⟨listing_at (laid_at rd ok.placed hu), fun cwd ls hc hls => ?_⟩⟩
  obtain ⟨ix, h0, hj⟩ := jobs_star ok hk ha ho (laid_at rd ok.placed hu) hc ls hls
  exact pack_at rd ok.placed (laid_at rd ok.placed hu) hf h0 hj

/-- there is a current folder in which the build can be run -/
theorem around_ex {names : V → List Text} {s : Sys} {idx : D} {w w' : World V} {l : List (Item V)} {M : Dir → Text → List Code.Node} {E : Dir → Text → V8.Areas.Elems V}
    (ok : StarOk names s idx l M E) (ha : Alone s idx l) (ho : Only s idx w l) (h : Laid names s (starTarget s.src idx) w l M E w') : ∃ cwd, Around cwd s idx w' := by
  classical
  refine ⟨fun f => some ((l.filter (fun i => decide (w' (starFolder s.src f, i.2.1) ≠ none))).map (fun i => (i.2.1, true))), fun q f hq hf n => ?_⟩
  constructor
  · rintro ⟨nl, h1, h2⟩
    cases h1
    obtain ⟨i, hi, he⟩ := List.mem_map.mp h2
    injection he with he _
    rw [← he]
    exact of_decide_eq_true (List.mem_filter.mp hi).2
  · intro hn
    obtain ⟨_, c, hi⟩ := only_after ok ha ho h q f hq hf n hn
    exact ⟨_, rfl, List.mem_map.mpr ⟨_, List.mem_filter.mpr ⟨hi, decide_eq_true hn⟩, rfl⟩⟩

/-! ### what goes wrong -/

/-- a copy made because of the index stands in the product, whatever the source folder has in its place -/
theorem plain_job {names : V → List Text} {cwd : Text → Option (List (Text × Bool))} {s : Sys} {idx : D} {w' : World V} {ls : List (Dir × Text)} {fuel : Nat}
    {d : Dir × Text → Option (Content V)} {ix : List Job} (hix : indexJobs cwd s.src idx = some ix) (hd : Packed names cwd s idx w' ls fuel d) (j : Job) (hj : j ∈ ix)
    (hplain : isCode j.dest.2 = false ∧ isElem j.dest.2 = false) (hu : ∀ j' ∈ ix, j'.dest = j.dest → j' = j) :
    w' j.source ≠ none ∧ d j.dest = w' j.source := by
  have hrun : runJob names s w' fuel j = w' j.source := by
    unfold runJob
    simp only [hplain.1, hplain.2, Bool.false_eq_true, if_false]
  have hsome : w' j.source ≠ none := by
    obtain ⟨ix', plain, code, elem, code', elem', g0, g1, _⟩ := hd
    rw [hix] at g0
    cases g0
    intro hn
    have hall : ∀ (L : List Job) r, runJobs names s w' fuel L = some r → ∀ j ∈ L, runJob names s w' fuel j ≠ none := by
      intro L
      induction L with
      | nil => intro r _ j hj; cases hj
      | cons a L ih =>
        intro r hr j hj
        obtain ⟨b, bs, r1, r2, rfl⟩ := Org.mapM_cons _ a L r hr
        rcases List.mem_cons.mp hj with rfl | hj
        · intro hn
          rw [hn] at r1
          cases r1
        · exact ih bs r2 j hj
    refine hall _ _ g1 j (List.mem_filter.mpr ⟨List.mem_append_left _ hj, ?_⟩) (hrun.trans hn)
    simp only [hplain.1, hplain.2]
    rfl
  refine ⟨hsome, ?_⟩
  obtain ⟨ix', L, g0, rfl, hL⟩ := packed_mem hd
  rw [hix] at g0
  cases g0
  cases hc : w' j.source with
  | none => exact absurd hc hsome
  | some c =>
    refine folder_some L _ c (fun x hx hf => ?_) ⟨(j.dest, c), (hL _).mpr ⟨j, List.mem_append_left _ hj, hrun.trans hc, rfl⟩, rfl⟩
    obtain ⟨j', hjm, r1, r2⟩ := (hL x).mp hx
    rcases List.mem_append.mp hjm with hjm | hjm
    · rw [hu j' hjm (r2.symm.trans hf), hrun, hc] at r1
      exact (Option.some.inj r1).symm
    · obtain ⟨f, hfm, rfl⟩ := List.mem_map.mp hjm
      have hfe : f = j.dest := r2.symm.trans hf
      have := (List.mem_filter.mp hfm).2
      rw [Bool.not_eq_true', Bool.eq_false_iff] at this
      refine absurd (List.any_eq_true.mpr ⟨_, hj, ?_⟩) this
      have hnq : isQueued j.dest.2 = false := by
        unfold isQueued
        have h1 : ends ".bsl".toList j.dest.2 = false := hplain.1
        have h2 := hplain.2
        unfold isElem at h2
        rw [hplain.1, Bool.not_false, Bool.true_and] at h2
        rw [h1, h2]
        rfl
      rw [hnq, hfe, Bool.not_false, Bool.true_and]
      exact decide_eq_true rfl

/-- two copies of the index for the same place are the same -/
theorem star_unique {names : V → List Text} {s : Sys} {idx : D} {l : List (Item V)} {M : Dir → Text → List Code.Node} {E : Dir → Text → V8.Areas.Elems V}
    (_ok : StarOk names s idx l M E) {cwd : Text → Option (List (Text × Bool))} {q : Dir} {f n : Text} (h : (J.obj idx).at (q ++ [['*']]) = some (.str f))
    (hno : ∀ e, (J.obj idx).at (q ++ [n]) = some (.str e) → e = []) (j : Job)
    (hj : (∃ q k e, areasKey ∉ q ++ [k] ∧ e ≠ [] ∧ k ≠ ['*'] ∧ (J.obj idx).at (q ++ [k]) = some (.str e) ∧ j = ⟨(q, k), named s.src e⟩) ∨
        ∃ q f nl n, areasKey ∉ q ∧ (J.obj idx).at (q ++ [['*']]) = some (.str f) ∧ cwd f = some nl ∧ (n, true) ∈ nl ∧
          j = ⟨(q, n), entryFile s.src n (pjoin f n)⟩) (hd : j.dest = (q, n)) :
    (∃ nl, cwd f = some nl ∧ (n, true) ∈ nl) ∧ j = ⟨(q, n), entryFile s.src n (pjoin f n)⟩ := by
  rcases hj with ⟨q', k, e, a1, a2, a3, a4, rfl⟩ | ⟨q', f', nl, n', a1, a2, a3, a4, rfl⟩
  · have he : (q', k) = (q, n) := hd
    injection he with e1 e2
    subst e1; subst e2
    exact absurd (hno e a4) a2
  · have he : (q', n') = (q, n) := hd
    injection he with e1 e2
    subst e1; subst e2
    rw [h] at a2
    cases a2
    exact ⟨⟨nl, a3, a4⟩, rfl⟩

/-- **C77 is false if the build is not run from the folder around the sources.**  A file that extraction moved into the folder of a `*` entry is looked for
under the current folder; if there is no such folder there, the build passes it over without a word and the product is without the file. -/
theorem C77_elsewhere_neg (names : V → List Text) (cwd : Text → Option (List (Text × Bool))) (s : Sys) (idx : D) (w w' : World V) (l : List (Item V))
    (M : Dir → Text → List Code.Node) (E : Dir → Text → V8.Areas.Elems V) (rd : Ready names s w l M E) (ok : StarOk names s idx l M E)
    (h : Unpacked names s idx w l w') (i : Item V) (hi : i ∈ l) (f : Text) (h1 : (J.obj idx).at (i.1 ++ [i.2.1]) = none)
    (h2 : (J.obj idx).at (i.1 ++ [['*']]) = some (.str f)) (hc : cwd f = none) (ls : List (Dir × Text)) (hls : Listing s w' ls) (fuel : Nat)
    (d : Dir × Text → Option (Content V)) (hd : Packed names cwd s idx w' ls fuel d) : d (i.1, i.2.1) = none := by
  obtain ⟨ix, L, g0, rfl, hL⟩ := packed_mem hd
  obtain ⟨ix', hix, hm, _⟩ := star_jobs ok cwd
  rw [hix] at g0
  cases g0
  cases hv : folder L (i.1, i.2.1) with
  | none => rfl
  | some c =>
    obtain ⟨j, hj, _, e⟩ := (hL _).mp (folder_mem L _ c hv)
    rcases List.mem_append.mp hj with hj | hj
    · obtain ⟨⟨nl, n1, _⟩, _⟩ := star_unique ok h2 (fun e he => by rw [h1] at he; cases he) j (hm j hj) e.symm
      rw [hc] at n1
      cases n1
    · obtain ⟨x, hx, rfl⟩ := List.mem_map.mp hj
      have hxe : x = (i.1, i.2.1) := e.symm
      subst hxe
      obtain ⟨c', hi', ht⟩ := (laid_at rd ok.placed h).only i.1 i.2.1 ((hls _ _).mp (List.mem_filter.mp hx).1)
      rw [star_own h1 h2] at ht
      injection ht with ht
      exact absurd (ht ▸ List.prefix_append _ _) (ok.away i.1 f (areas_path ok i hi) h2).1

/-- **C77 is false of the documented exceptions.**  `"name": null` beside a `*` entry keeps the file in the source folder on extraction (usage.md:330-340); but
if the folder of the `*` entry has a file of that name - it may be shared with other products - the build takes that one, and not the file in its place. -/
theorem C77_exception_neg (names : V → List Text) (cwd : Text → Option (List (Text × Bool))) (s : Sys) (idx : D) (w w' : World V) (l : List (Item V))
    (M : Dir → Text → List Code.Node) (E : Dir → Text → V8.Areas.Elems V) (rd : Ready names s w l M E) (ok : StarOk names s idx l M E) (ha : Alone s idx l)
    (h : Unpacked names s idx w l w') (hc : Around cwd s idx w') (i : Item V) (hi : i ∈ l) (f : Text) (h1 : (J.obj idx).at (i.1 ++ [i.2.1]) = some .null)
    (h2 : (J.obj idx).at (i.1 ++ [['*']]) = some (.str f)) (hplain : isCode i.2.1 = false ∧ isElem i.2.1 = false) (c : Content V)
    (hw : w (starFolder s.src f, i.2.1) = some c) (ls : List (Dir × Text)) (fuel : Nat) (d : Dir × Text → Option (Content V))
    (hd : Packed names cwd s idx w' ls fuel d) :
    w' (s.src ++ i.1, i.2.1) = some i.2.2 ∧ d (i.1, i.2.1) = some c := by
  have hl := laid_at rd ok.placed h
  have hap := areas_path ok i hi
  have ht : starTarget s.src idx i.1 i.2.1 = (s.src ++ i.1, i.2.1) := by
    unfold starTarget
    rw [h1]
  have hno : ∀ e, (J.obj idx).at (i.1 ++ [i.2.1]) = some (.str e) → e = [] := fun e he => by rw [h1] at he; cases he
  constructor
  · obtain ⟨c', ho, hw'⟩ := hl.own i hi
    rw [ht] at hw'
    rw [hw', own_unique ho (.inr (.inr ⟨hplain.1, hplain.2, rfl⟩))]
  have hkept : w' (starFolder s.src f, i.2.1) = some c := by
    obtain ⟨a1, a2, a3⟩ := ok.away i.1 f hap h2
    rw [hl.rest (starFolder s.src f, i.2.1) a1 ?_ ?_ ?_]
    · exact hw
    · intro j hj e
      obtain ⟨b1, b2⟩ := ha i.1 f hap h2 j hj (by rw [← e])
      rw [b1] at b2 e
      rw [star_own b2 h2] at e
      injection e with _ e
      rw [← e, h1] at b2
      cases b2
    · intro hm
      obtain ⟨a, g1, g2⟩ := List.mem_map.mp hm
      exact a2 a g1 (congrArg Prod.fst g2)
    · intro hm
      obtain ⟨a, g1, g2⟩ := List.mem_map.mp hm
      exact a3 a g1 (congrArg Prod.fst g2)
  obtain ⟨ix, hix, hm, _, h3⟩ := star_jobs ok cwd
  obtain ⟨nl, n1, n2⟩ := (hc i.1 f hap h2 i.2.1).mpr (by rw [hkept]; exact Option.some_ne_none _)
  have hfile := star_file ok h2 ((ok.paths i hi).1 _ (List.mem_append_right _ (List.mem_singleton.mpr rfl)))
  have hj := h3 i.1 f nl i.2.1 hap h2 n1 n2 hno
  obtain ⟨_, hd'⟩ := plain_job hix hd _ hj hplain (fun j' hj' he => (star_unique ok h2 hno j' (hm j' hj') he).2)
  simp only at hd'
  rw [hd', hfile, hkept]

/-- **C77 is false if an entry moves a file under another name into the folder of the `*` entry beside it.**  The build packs the moved file twice: under its
own path and under the name it has in that folder, which the product never had. -/
theorem C77_renamed_neg (names : V → List Text) (cwd : Text → Option (List (Text × Bool))) (s : Sys) (idx : D) (w w' : World V) (l : List (Item V))
    (M : Dir → Text → List Code.Node) (E : Dir → Text → V8.Areas.Elems V) (rd : Ready names s w l M E) (ok : StarOk names s idx l M E)
    (h : Unpacked names s idx w l w') (hc : Around cwd s idx w') (i : Item V) (hi : i ∈ l) (e f n : Text) (h1 : (J.obj idx).at (i.1 ++ [i.2.1]) = some (.str e))
    (he : e ≠ []) (h2 : (J.obj idx).at (i.1 ++ [['*']]) = some (.str f)) (hn : named s.src e = (starFolder s.src f, n)) (hp : V8.Path.Plain n)
    (hplain : isCode n = false ∧ isElem n = false) (hno : (J.obj idx).at (i.1 ++ [n]) = none) (_hnew : ∀ c, (i.1, n, c) ∉ l)
    (ls : List (Dir × Text)) (fuel : Nat) (d : Dir × Text → Option (Content V)) (hd : Packed names cwd s idx w' ls fuel d) :
    ∃ c, Own names s M E i c ∧ d (i.1, n) = some c := by
  have hl := laid_at rd ok.placed h
  have hap := areas_path ok i hi
  obtain ⟨c, ho, hw⟩ := hl.own i hi
  rw [star_named h1 he, hn] at hw
  have hno' : ∀ e, (J.obj idx).at (i.1 ++ [n]) = some (.str e) → e = [] := fun e he => by rw [hno] at he; cases he
  obtain ⟨ix, hix, hm, _, h3⟩ := star_jobs ok cwd
  obtain ⟨nl, n1, n2⟩ := (hc i.1 f hap h2 n).mpr (by rw [hw]; exact Option.some_ne_none _)
  have hj := h3 i.1 f nl n hap h2 n1 n2 hno'
  obtain ⟨_, hd'⟩ := plain_job hix hd _ hj hplain (fun j' hj' he => (star_unique ok h2 hno' j' (hm j' hj') he).2)
  simp only at hd'
  exact ⟨c, ho, by rw [hd', star_file ok h2 hp, hw]⟩

/-- **C77 is false of `*` entries with exclusions.**  Extraction looks up the key `*` only: with a key such as `*-a-b` every file stays in the source folder.
The build takes the files in the folder of the entry all the same, even over the file in its place. -/
theorem C77_excluding_neg (names : V → List Text) (cwd : Text → Option (List (Text × Bool))) (s : Sys) (k f n : Text) (c : Content V)
    (hk : starts ['*'] k = true) (hk2 : k ≠ ['*']) (hf : f ≠ []) (hne : s.src ≠ []) (hs : ∀ c ∈ s.src, V8.Path.Plain c) (hcf : CleanFolder f)
    (hp : V8.Path.Plain n) (hnk : n ≠ k) (hex : n ∉ (split '-' k).tail) (hplain : isCode n = false ∧ isElem n = false)
    (nl : List (Text × Bool)) (hcw : cwd f = some nl) (hnl : (n, true) ∈ nl) (w : World V) (hw : w (starFolder s.src f, n) = some c)
    (ls : List (Dir × Text)) (fuel : Nat) (d : Dir × Text → Option (Content V)) (hd : Packed names cwd s (.cons k (.str f) .nil) w ls fuel d) :
    home s.src (.cons k (.str f) .nil) [] n = some (s.src, n) ∧ d ([], n) = some c := by
  have hka : k ≠ areasKey := by rintro rfl; exact absurd hk (by decide)
  constructor
  · have e1 : ∀ x : Text, x ≠ k → (J.obj (.cons k (.str f) .nil)).at ([] ++ [x]) = none := by
      intro x hx
      rw [List.nil_append, at_obj, D.get, if_neg (fun e => hx e.symm)]
      rfl
    have := home_eq s.src (.cons k (.str f) .nil) hs [] (fun c hc => by cases hc) n (fun e he => by rw [e1 n hnk] at he; cases he)
      (fun v hv => by rw [e1 n hnk] at hv; cases hv) (e1 _ (fun e => hk2 e.symm)) (fun q hq => by
        rw [List.prefix_nil.mp hq, at_nil]
        exact .inr ⟨_, rfl⟩)
    rw [this, target, e1 n hnk, List.append_nil]
  · have hpk : packIndex ⟨cwd, some⟩ [] (.cons k (.str f) .nil) [] = some ((wildNames k [] nl).map (starOp [] ([['*']], f))) := by
      rw [packIndex_step, if_neg (by simp [truthy, hf, hka]), if_pos hk]
      simp only [hcw]
      rw [mapM_packElem, packIndex]
      simp
    have hix : indexJobs cwd s.src (.cons k (.str f) .nil) =
        some (((wildNames k [] nl).map (starOp [] ([['*']], f))).map (fun o => ⟨o.dest, entryFile s.src o.dest.2 o.content⟩)) := by
      unfold indexJobs
      rw [hpk]
      rfl
    have hjob : ∀ m, (⟨(starOp [] ([['*']], f) m).dest, entryFile s.src (starOp [] ([['*']], f) m).dest.2 (starOp [] ([['*']], f) m).content⟩ : Job) =
        ⟨([], m), entryFile s.src m (pjoin f m)⟩ := fun m => rfl
    have hj : (⟨([], n), entryFile s.src n (pjoin f n)⟩ : Job) ∈
        ((wildNames k [] nl).map (starOp [] ([['*']], f))).map (fun o => (⟨o.dest, entryFile s.src o.dest.2 o.content⟩ : Job)) := by
      rw [List.map_map]
      refine List.mem_map.mpr ⟨n, ?_, rfl⟩
      unfold wildNames
      exact List.mem_map.mpr ⟨(n, true), List.mem_filter.mpr ⟨hnl, by simp [hex]⟩, rfl⟩
    obtain ⟨_, hd'⟩ := plain_job hix hd _ hj hplain (fun j' hj' he => by
      rw [List.map_map] at hj'
      obtain ⟨m, _, rfl⟩ := List.mem_map.mp hj'
      have : ([], m) = (([] : Dir), n) := he
      injection this with _ this
      subst this
      rfl)
    simp only at hd'
    rw [hd', entryFile_eq s.src hne hs _ _ (folder_entry hcf hp), folder_named s.src hcf hp, hw]

end V8.OrgIndex
