import Verif.OrgIndexLemmas
import Verif.Props.Org
/-
C74: a folder with an index.  What extraction lays out - in the source folder, in the files the index names, in the files of the areas - is what the
build puts together again.
-/
namespace V8.OrgIndex
open V8.Str V8.Enc V8.Code V8.Brace V8.Json V8.Index
open V8.Org (Sys Content World Item Write isCode isElem puts clear txt texts forms tasks Listing areasOf ModuleOk FormOk codeAreas elemAreas Ready)

variable {V : Type}

/-! ### specification -/

/-- an index that fits a folder `l` -/
structure IndexOk (names : V → List Text) (s : Sys) (idx : D) (l : List (Item V)) (M : Dir → Text → List Code.Node) (E : Dir → Text → V8.Areas.Elems V) : Prop where
  /-- no version is given -/
  flat : s.deep = false
  wf : idx.WF
  tidy : Tidy idx
  srcNe : s.src ≠ []
  srcPlain : ∀ c ∈ s.src, V8.Path.Plain c
  paths : ∀ i ∈ l, (∀ c ∈ i.1, V8.Path.Plain c) ∧ areasKey ∉ i.1 ++ [i.2.1]
  /-- every entry names a file -/
  clean : ∀ q k e, areasKey ∉ q ++ [k] → (J.obj idx).at (q ++ [k]) = some (.str e) → e ≠ [] → CleanEntry e
  /-- files of the product are no folders of the index, folders of the product no files of the index, and no `*` entry is for them -/
  file : ∀ i ∈ l, ∀ v, (J.obj idx).at (i.1 ++ [i.2.1]) = some v → v = .null ∨ ∃ e, v = .str e
  way : ∀ i ∈ l, ∀ q, q <+: i.1 → (J.obj idx).at q = none ∨ ∃ d, (J.obj idx).at q = some (.obj d)
  noWild : ∀ i ∈ l, (J.obj idx).at (i.1 ++ [['*']]) = none
  /-- the entries are for files outside the source folder -/
  outside : ∀ i ∈ l, target s.src idx i.1 i.2.1 = (s.src ++ i.1, i.2.1) ∨ ¬ s.src <+: (target s.src idx i.1 i.2.1).1
  /-- no two files of the product belong to the same place, and none to that of an area -/
  once : ∀ i ∈ l, ∀ j ∈ l, target s.src idx i.1 i.2.1 = target s.src idx j.1 j.2.1 → i.1 = j.1 ∧ i.2.1 = j.2.1
  free : ∀ i ∈ l, ∀ a ∈ codeAreas s M l, target s.src idx i.1 i.2.1 ≠ a.1
  freeElems : ∀ i ∈ l, ∀ a ∈ elemAreas names s E l, target s.src idx i.1 i.2.1 ≠ a.1
  /-- files of elements stay files of elements -/
  ext : ∀ i ∈ l, isElem i.2.1 = true → isElem (target s.src idx i.1 i.2.1).2 = true

/-- the index has entries only for files of the product -/
def NoOther (idx : D) (l : List (Item V)) : Prop :=
  ∀ q k e, areasKey ∉ q ++ [k] → (J.obj idx).at (q ++ [k]) = some (.str e) → e ≠ [] → ∃ c, (q, k, c) ∈ l

/-- what extraction leaves of a file in its place: of a module what is outside its areas, of elements what is outside the areas, all of other files -/
def Own (names : V → List Text) (s : Sys) (M : Dir → Text → List Code.Node) (E : Dir → Text → V8.Areas.Elems V) (i : Item V) (c : Content V) : Prop :=
  (isCode i.2.1 = true ∧ c = txt s (nodesOwn (M i.1 i.2.1)).flatten) ∨
  (isElem i.2.1 = true ∧ ∃ tree data, V8.Areas.areasOut names (E i.1 i.2.1).tree [] (E i.1 i.2.1).data = some (tree, data, areasOf names (E i.1 i.2.1)) ∧
    c = .elems ⟨tree, data, (E i.1 i.2.1).extra⟩) ∨
  (isCode i.2.1 = false ∧ isElem i.2.1 = false ∧ c = i.2.2)

theorem own_unique {names : V → List Text} {s : Sys} {M : Dir → Text → List Code.Node} {E : Dir → Text → V8.Areas.Elems V} {i : Item V} {c c' : Content V}
    (h : Own names s M E i c) (h' : Own names s M E i c') : c = c' := by
  have hk := Org.kind_cases i.2.1
  rcases h with ⟨h1, h2⟩ | ⟨h1, t, d, h2, h3⟩ | ⟨h1, h2, h3⟩ <;> rcases h' with ⟨g1, g2⟩ | ⟨g1, t', d', g2, g3⟩ | ⟨g1, g2, g3⟩
  · rw [h2, g2]
  · simp [h1, g1] at hk
  · simp [h1] at g1
  · simp [h1, g1] at hk
  · rw [h2] at g2
    cases g2
    rw [h3, g3]
  · simp [h1] at g2
  · simp [g1] at h1
  · simp [g1] at h2
  · rw [h3, g3]

/-! ### names -/

theorem ext_elem (n : Text) (h : isElem n = true) : ext9 n = "elem.json".toList := by
  unfold isElem at h
  rw [Bool.and_eq_true] at h
  have h2 := h.2
  rw [ends, List.isSuffixOf_iff_suffix] at h2
  obtain ⟨t, rfl⟩ := h2
  unfold ext9
  have : (t ++ ".elem.json".toList).length - 9 = (t ++ ['.']).length := by
    rw [List.length_append, List.length_append]
    show t.length + 10 - 9 = t.length + 1
    omega
  rw [this, show t ++ ".elem.json".toList = (t ++ ['.']) ++ "elem.json".toList by rw [List.append_assoc]; rfl, List.drop_left]

theorem elemFile_eq (s : Sys) (n : Text) (h : isElem n = true) (key : Text) (cur : Dir) : elemFile s (ext9 n) key cur = Org.elemFile s key cur := by
  unfold elemFile Org.elemFile
  rw [ext_elem n h]
  rfl

/-- an area whose file is not in the source folder is found from anywhere -/
theorem elemFile_cur (s : Sys) (key : Text) (p cur : Dir) (h : ¬ s.src <+: (Org.elemFile s key (s.src ++ p)).1) :
    Org.elemFile s key cur = Org.elemFile s key (s.src ++ p) := by
  unfold Org.elemFile at h ⊢
  have : (parse s.env key cur).1 = (parse s.env key (s.src ++ p)).1 := by
    unfold parse at h ⊢
    simp only at h ⊢
    by_cases hr : (if s.env.descent = true then ["..".toList, "..".toList] else ["..".toList]) ++
        (split '_' (s.env.name key)).dropLast.map (fun c => if c = [] then "..".toList else c) = ["..".toList]
    · rw [if_pos hr] at h
      exact absurd (List.prefix_append _ _) h
    · rw [if_neg hr, if_neg hr]
  rw [this]

/-! ### what is written -/

theorem home_item {names : V → List Text} {s : Sys} {idx : D} {l : List (Item V)} {M : Dir → Text → List Code.Node} {E : Dir → Text → V8.Areas.Elems V}
    (ok : IndexOk names s idx l M E) (i : Item V) (hi : i ∈ l) : home s.src idx i.1 i.2.1 s.deep = some (target s.src idx i.1 i.2.1) := by
  rw [ok.flat]
  exact home_eq s.src idx ok.srcPlain i.1 (ok.paths i hi).1 i.2.1
    (fun e he hne => ok.clean i.1 i.2.1 e (ok.paths i hi).2 he hne) (ok.file i hi) (ok.noWild i hi) (ok.way i hi)

/-- what is written for a module -/
theorem code_writes (s : Sys) (idx : D) (i : Item V) (m : List Code.Node) (hc : i.2.2 = txt s (text m)) (ok : ModuleOk s m) (f : Org.File)
    (hf : home s.src idx i.1 i.2.1 s.deep = some f) :
    ∃ u, codeWrites s idx i = some u ∧ ∀ x, x ∈ u ↔ (x = (f, txt s (nodesOwn m).flatten) ∨
      ∃ p ∈ nodesAreas m, p.2.1 = .incl ∧ x = (parse s.env p.1 (s.src ++ i.1), txt s p.2.2.flatten)) := by
  unfold codeWrites
  rw [hc, txt]
  simp only
  have hd : dropBom (osWrite s.win (text m)) = osWrite s.win (text m) := by
    rw [dropBom, if_neg (fun h => ok.noBom ((V8.Module.osWrite_head s.win (text m)).mp h))]
  rw [utf8SigText_utf8, hd, Option.bind_some, V8.Module.universal_osWrite s.win _ ok.unix, unpack_module _ m ok.wf ok.proper ok.names, Option.bind_some, hf,
    Option.map_some]
  refine ⟨_, rfl, fun x => ?_⟩
  have hroot : ∀ p ∈ nodesAreas m, p.1 ≠ "root".toList := fun p hp he =>
    (List.nodup_cons.mp ok.names).1 (he ▸ List.mem_map.mpr ⟨p, hp, rfl⟩)
  rw [List.mem_filterMap]
  constructor
  · rintro ⟨q, hq, hx⟩
    rcases List.mem_cons.mp hq with rfl | hq
    · rw [if_pos rfl] at hx
      exact .inl (Option.some.inj hx).symm
    right
    rw [entries, List.mem_map] at hq
    obtain ⟨p, hp, rfl⟩ := hq
    rw [if_neg (hroot p hp)] at hx
    cases ht : p.2.1 with
    | incr =>
      simp only [ht, if_true] at hx
      cases hx
    | incl =>
      simp only [ht, reduceCtorEq, if_false] at hx
      exact ⟨p, hp, ht, (Option.some.inj hx).symm⟩
  · rintro (rfl | ⟨p, hp, ht, rfl⟩)
    · exact ⟨("root".toList, ⟨.incl, (nodesOwn m).flatten⟩), List.mem_cons_self, if_pos rfl⟩
    refine ⟨(p.1, ⟨p.2.1, p.2.2.flatten⟩), List.mem_cons_of_mem _ <| by rw [entries]; exact List.mem_map.mpr ⟨p, hp, rfl⟩, ?_⟩
    rw [if_neg (hroot p hp)]
    simp only [ht, reduceCtorEq, if_false]

/-- what is written for the elements of a form -/
theorem elem_writes (names : V → List Text) (s : Sys) (idx : D) (i : Item V) (e : V8.Areas.Elems V) (hc : i.2.2 = .elems e) (hk : isElem i.2.1 = true)
    (ok : FormOk e) (f : Org.File) (hf : home s.src idx i.1 i.2.1 s.deep = some f) (u : List (Write V)) (h : elemWrites names s idx i = some u) :
    ∃ tree data, V8.Areas.areasOut names e.tree [] e.data = some (tree, data, areasOf names e) ∧
      ∀ x, x ∈ u ↔ (x = (f, .elems ⟨tree, data, e.extra⟩) ∨
        ∃ a ∈ areasOf names e, x = (Org.elemFile s a.1 (s.src ++ i.1), .elems a.2)) := by
  unfold elemWrites at h
  rw [hc] at h
  simp only at h
  unfold areasOf
  cases ho : V8.Areas.areasOut names e.tree [] e.data with
  | none => rw [ho] at h; cases h
  | some q =>
    obtain ⟨tree, data, areas⟩ := q
    rw [ho, Option.bind_some, hf, Option.map_some] at h
    simp only at h
    have hnames : areas.map (·.1) = (V8.Areas.areaList e.tree).map (·.2.1) :=
      V8.Areas.areaNames_eq names e.tree [] e.data data tree areas ho ok.groups
    have hn2 : ∀ a ∈ areas, a.1 ≠ V8.Areas.rootWord := by
      intro a ha he
      have : a.1 ∈ (V8.Areas.areaList e.tree).map (·.2.1) := by rw [← hnames]; exact List.mem_map.mpr ⟨a, ha, rfl⟩
      obtain ⟨b, hb, hba⟩ := List.mem_map.mp this
      exact ok.noRoot b hb (hba.trans he)
    have hfo := V8.Areas.foldl_assign areas [] (by rw [List.nil_append, hnames]; exact ok.once)
    rw [List.nil_append] at hfo
    rw [hfo, V8.Areas.assign_new _ _ _ (fun hm => by obtain ⟨a, ha, he⟩ := List.mem_map.mp hm; exact hn2 a ha he), Option.some.injEq] at h
    refine ⟨tree, data, rfl, fun x => ?_⟩
    rw [← h, List.mem_map]
    constructor
    · rintro ⟨a, ha, rfl⟩
      rcases List.mem_append.mp ha with ha | ha
      · right
        refine ⟨a, ha, ?_⟩
        rw [if_neg (hn2 a ha), elemFile_eq s _ hk]
      · left
        rw [List.mem_singleton.mp ha, if_pos rfl]
    · rintro (rfl | ⟨a, ha, rfl⟩)
      · refine ⟨(V8.Areas.rootWord, ⟨tree, data, e.extra⟩), List.mem_append_right _ (List.mem_singleton.mpr rfl), ?_⟩
        rw [if_pos rfl]
      · refine ⟨a, List.mem_append_left _ ha, ?_⟩
        rw [if_neg (hn2 a ha), elemFile_eq s _ hk]

/-! ### the files after extraction -/

/-- files of the product go to places of their own: `T` says where -/
structure Placed (names : V → List Text) (s : Sys) (idx : D) (T : Dir → Text → Org.File) (l : List (Item V)) (M : Dir → Text → List Code.Node)
    (E : Dir → Text → V8.Areas.Elems V) : Prop where
  home : ∀ i ∈ l, home s.src idx i.1 i.2.1 s.deep = some (T i.1 i.2.1)
  outside : ∀ i ∈ l, T i.1 i.2.1 = (s.src ++ i.1, i.2.1) ∨ ¬ s.src <+: (T i.1 i.2.1).1
  once : ∀ i ∈ l, ∀ j ∈ l, T i.1 i.2.1 = T j.1 j.2.1 → i.1 = j.1 ∧ i.2.1 = j.2.1
  free : ∀ i ∈ l, ∀ a ∈ codeAreas s M l, T i.1 i.2.1 ≠ a.1
  freeElems : ∀ i ∈ l, ∀ a ∈ elemAreas names s E l, T i.1 i.2.1 ≠ a.1
  ext : ∀ i ∈ l, isElem i.2.1 = true → isElem (T i.1 i.2.1).2 = true

theorem IndexOk.placed {names : V → List Text} {s : Sys} {idx : D} {l : List (Item V)} {M : Dir → Text → List Code.Node} {E : Dir → Text → V8.Areas.Elems V}
    (ok : IndexOk names s idx l M E) : Placed names s idx (target s.src idx) l M E := ⟨home_item ok, ok.outside, ok.once, ok.free, ok.freeElems, ok.ext⟩

/-- the files after extraction -/
structure Laid (names : V → List Text) (s : Sys) (T : Dir → Text → Org.File) (w : World V) (l : List (Item V)) (M : Dir → Text → List Code.Node) (E : Dir → Text → V8.Areas.Elems V)
    (w' : World V) : Prop where
  own : ∀ i ∈ l, ∃ c, Own names s M E i c ∧ w' (T i.1 i.2.1) = some c
  area : ∀ a ∈ codeAreas s M l, w' a.1 = some (txt s a.2.2)
  elemArea : ∀ a ∈ elemAreas names s E l, w' a.1 = some (.elems a.2)
  only : ∀ p n, w' (s.src ++ p, n) ≠ none → ∃ c, (p, n, c) ∈ l ∧ T p n = (s.src ++ p, n)
  rest : ∀ f, ¬ s.src <+: f.1 → (∀ i ∈ l, f ≠ T i.1 i.2.1) → f ∉ (codeAreas s M l).map (·.1) → f ∉ (elemAreas names s E l).map (·.1) → w' f = w f

theorem laid_at {names : V → List Text} {s : Sys} {idx : D} {T : Dir → Text → Org.File} {w : World V} {l : List (Item V)} {M : Dir → Text → List Code.Node} {E : Dir → Text → V8.Areas.Elems V}
    (rd : Ready names s w l M E) (ok : Placed names s idx T l M E) {w' : World V} (h : Unpacked names s idx w l w') : Laid names s T w l M E w' := by
  obtain ⟨plain, code, elem, code', elem', hp, hc, he, pc, pe, rfl⟩ := h
  obtain ⟨p1, p2⟩ := Org.tasks_mem _ _ _ hp
  obtain ⟨c1, c2⟩ := Org.tasks_mem _ _ _ hc
  obtain ⟨e1, e2⟩ := Org.tasks_mem _ _ _ he
  have hmem : ∀ x, x ∈ plain ++ code' ++ elem' ↔ x ∈ plain ∨ x ∈ code ∨ x ∈ elem := by
    intro x
    rw [List.mem_append, List.mem_append, pc.mem_iff, pe.mem_iff, or_assoc]
  have hwrites : ∀ x ∈ plain ++ code' ++ elem', (∃ i ∈ l, x.1 = T i.1 i.2.1 ∧ Own names s M E i x.2) ∨
      (∃ a ∈ codeAreas s M l, x = (a.1, txt s a.2.2)) ∨ ∃ a ∈ elemAreas names s E l, x = (a.1, .elems a.2) := by
    intro x hx
    rcases (hmem x).mp hx with hx | hx | hx
    · obtain ⟨i, hi, u, hu, hxu⟩ := p2 x hx
      rw [List.mem_filter, Bool.and_eq_true, Bool.not_eq_true', Bool.not_eq_true'] at hi
      unfold plainWrites at hu
      rw [ok.home i hi.1, Option.map_some] at hu
      cases hu
      rw [List.mem_singleton.mp hxu]
      exact .inl ⟨i, hi.1, rfl, .inr (.inr ⟨hi.2.1, hi.2.2, rfl⟩)⟩
    · obtain ⟨i, hi, u, hu, hxu⟩ := c2 x hx
      rw [List.mem_filter] at hi
      obtain ⟨m1, m2⟩ := rd.module i hi.1 hi.2
      obtain ⟨u', hu', hm⟩ := code_writes s idx i _ m1 m2 _ (ok.home i hi.1)
      rw [hu] at hu'
      cases hu'
      rcases (hm x).mp hxu with h | ⟨p, hp, ht, rfl⟩
      · rw [h]
        exact .inl ⟨i, hi.1, rfl, .inl ⟨hi.2, rfl⟩⟩
      · right; left
        exact ⟨_, List.mem_flatMap.mpr ⟨i, List.mem_filter.mpr hi, List.mem_map.mpr ⟨p, hp, rfl⟩⟩, rfl⟩
    · obtain ⟨i, hi, u, hu, hxu⟩ := e2 x hx
      rw [List.mem_filter] at hi
      obtain ⟨m1, m2⟩ := rd.form i hi.1 hi.2
      obtain ⟨tree, data, ho, hm⟩ := elem_writes names s idx i _ m1 hi.2 m2 _ (ok.home i hi.1) u hu
      rcases (hm x).mp hxu with h | ⟨a, ha, rfl⟩
      · rw [h]
        exact .inl ⟨i, hi.1, rfl, .inr (.inl ⟨hi.2, tree, data, ho, rfl⟩)⟩
      · right; right
        exact ⟨_, List.mem_flatMap.mpr ⟨i, List.mem_filter.mpr hi, List.mem_map.mpr ⟨a, ha, rfl⟩⟩, rfl⟩
  have hhas : ∀ i ∈ l, ∃ c, Own names s M E i c ∧ (T i.1 i.2.1, c) ∈ plain ++ code' ++ elem' := by
    intro i hi
    rcases Org.kind_cases i.2.1 with ⟨h1, h2⟩ | ⟨h1, h2⟩ | ⟨h1, h2⟩
    · obtain ⟨m1, m2⟩ := rd.module i hi h1
      obtain ⟨u, hu, hm⟩ := code_writes s idx i _ m1 m2 _ (ok.home i hi)
      obtain ⟨u', hu', hin⟩ := c1 i (List.mem_filter.mpr ⟨hi, h1⟩)
      rw [hu] at hu'
      cases hu'
      exact ⟨_, .inl ⟨h1, rfl⟩, (hmem _).mpr (.inr (.inl (hin _ ((hm _).mpr (.inl rfl)))))⟩
    · obtain ⟨m1, m2⟩ := rd.form i hi h2
      obtain ⟨u, hu, hin⟩ := e1 i (List.mem_filter.mpr ⟨hi, h2⟩)
      obtain ⟨tree, data, ho, hm⟩ := elem_writes names s idx i _ m1 h2 m2 _ (ok.home i hi) u hu
      exact ⟨_, .inr (.inl ⟨h2, tree, data, ho, rfl⟩), (hmem _).mpr (.inr (.inr (hin _ ((hm _).mpr (.inl rfl)))))⟩
    · obtain ⟨u, hu, hin⟩ := p1 i (List.mem_filter.mpr ⟨hi, by simp only [h1, h2]; rfl⟩)
      unfold plainWrites at hu
      rw [ok.home i hi, Option.map_some] at hu
      cases hu
      exact ⟨_, .inr (.inr ⟨h1, h2, rfl⟩), (hmem _).mpr (.inl (hin _ (List.mem_singleton.mpr rfl)))⟩
  have hname : ∀ a ∈ codeAreas s M l, ∀ b ∈ elemAreas names s E l, a.1 ≠ b.1 := by
    intro a ha b hb
    obtain ⟨i, _, hp⟩ := List.mem_flatMap.mp ha
    obtain ⟨p, _, rfl⟩ := List.mem_map.mp hp
    obtain ⟨j, _, hq⟩ := List.mem_flatMap.mp hb
    obtain ⟨q, _, rfl⟩ := List.mem_map.mp hq
    exact Org.parse_ne_elem s _ _ _ _
  have hincl : ∀ b ∈ codeAreas s M l, b.2.1 = .incl → ∃ x ∈ plain ++ code' ++ elem', x.1 = b.1 := by
    intro b hb ht
    obtain ⟨i, hi, hp⟩ := List.mem_flatMap.mp hb
    obtain ⟨p, hp', rfl⟩ := List.mem_map.mp hp
    have hi' := List.mem_filter.mp hi
    obtain ⟨m1, m2⟩ := rd.module i hi'.1 hi'.2
    obtain ⟨u, hu, hm⟩ := code_writes s idx i _ m1 m2 _ (ok.home i hi'.1)
    obtain ⟨u', hu', hin⟩ := c1 i hi
    rw [hu] at hu'
    cases hu'
    exact ⟨_, (hmem _).mpr (.inr (.inl (hin _ ((hm _).mpr (.inr ⟨p, hp', ht, rfl⟩))))), rfl⟩
  have hclear : ∀ f : Org.File, ¬ s.src <+: f.1 → clear s w f = w f := fun f hf => if_neg hf
  have pre : ∀ p : Dir, s.src <+: s.src ++ p := fun p => List.prefix_append _ _
  refine ⟨?_, ?_, ?_, ?_, ?_⟩
  · intro i hi
    obtain ⟨c, hown, hin⟩ := hhas i hi
    refine ⟨c, hown, Org.puts_val _ _ _ _ (fun x hx hf => ?_) (.inl ⟨_, hin, rfl⟩)⟩
    rcases hwrites x hx with ⟨j, hj, h1, h2⟩ | ⟨a, ha, rfl⟩ | ⟨a, ha, rfl⟩
    · obtain ⟨g1, g2⟩ := ok.once j hj i hi (h1.symm.trans hf)
      rw [Org.item_eq rd.distinct hj hi g1 g2] at h2
      exact own_unique h2 hown
    · exact absurd hf.symm (ok.free i hi a ha)
    · exact absurd hf.symm (ok.freeElems i hi a ha)
  · intro a ha
    have hval : ∀ x ∈ plain ++ code' ++ elem', x.1 = a.1 → x.2 = txt s a.2.2 := by
      intro x hx hf
      rcases hwrites x hx with ⟨j, hj, h1, h2⟩ | ⟨b, hb, rfl⟩ | ⟨b, hb, rfl⟩
      · exact absurd (h1.symm.trans hf) (ok.free j hj a ha)
      · show txt s b.2.2 = _
        rw [rd.shared b hb a ha hf]
      · exact absurd hf.symm (hname a ha b hb)
    refine Org.puts_val _ _ _ _ hval ?_
    cases ht : a.2.1 with
    | incl => exact .inl (hincl a ha ht)
    | incr =>
      rcases rd.readonly a ha ht with ⟨b, hb, hb1, hb2⟩ | hw
      · obtain ⟨x, hx, he⟩ := hincl b hb hb1
        exact .inl ⟨x, hx, he.trans hb2⟩
      · right
        rw [hclear _ (rd.outside a ha)]
        exact hw
  · intro a ha
    have ha' := ha
    obtain ⟨i, hi, hp⟩ := List.mem_flatMap.mp ha
    obtain ⟨p, hp, hpe⟩ := List.mem_map.mp hp
    have hi' := List.mem_filter.mp hi
    obtain ⟨m1, m2⟩ := rd.form i hi'.1 hi'.2
    obtain ⟨u, hu, hin⟩ := e1 i hi
    obtain ⟨tree, data, ho, hm⟩ := elem_writes names s idx i _ m1 hi'.2 m2 _ (ok.home i hi'.1) u hu
    refine Org.puts_val _ _ _ _ (fun x hx hf => ?_) (.inl ⟨_, (hmem _).mpr (.inr (.inr (hin _ ((hm _).mpr (.inr ⟨p, hp, rfl⟩))))), congrArg Prod.fst hpe⟩)
    rcases hwrites x hx with ⟨j, hj, h1, h2⟩ | ⟨b, hb, rfl⟩ | ⟨b, hb, rfl⟩
    · exact absurd (h1.symm.trans hf) (ok.freeElems j hj a ha)
    · exact absurd hf (hname b hb a ha)
    · show Content.elems b.2 = _
      rw [rd.sharedElems b hb a ha hf]
  · intro p n hne
    by_cases hx : ∃ x ∈ plain ++ code' ++ elem', x.1 = (s.src ++ p, n)
    · obtain ⟨x, hx, hf⟩ := hx
      rcases hwrites x hx with ⟨j, hj, h1, h2⟩ | ⟨b, hb, rfl⟩ | ⟨b, hb, rfl⟩
      · have ht := h1.symm.trans hf
        rcases ok.outside j hj with ho | ho
        · obtain ⟨rfl, rfl⟩ := Org.file_inj (ho.symm.trans ht)
          exact ⟨_, hj, ho⟩
        · rw [ht] at ho
          exact absurd (pre p) ho
      · exact absurd (by rw [show b.1.1 = s.src ++ p from congrArg Prod.fst hf]; exact pre _) (rd.outside b hb)
      · exact absurd (by rw [show b.1.1 = s.src ++ p from congrArg Prod.fst hf]; exact pre _) (rd.outsideElems b hb)
    · refine absurd ?_ hne
      rw [Org.puts_none _ _ _ (fun x hm he => hx ⟨x, hm, he⟩)]
      exact if_pos (pre p)
  · intro f hf h0 h1 h2
    rw [Org.puts_none, hclear f hf]
    intro x hx he
    rcases hwrites x hx with ⟨j, hj, g1, g2⟩ | ⟨b, hb, rfl⟩ | ⟨b, hb, rfl⟩
    · exact h0 j hj (he.symm.trans g1)
    · exact h1 (List.mem_map.mpr ⟨b, hb, he⟩)
    · exact h2 (List.mem_map.mpr ⟨b, hb, he⟩)

theorem laid {names : V → List Text} {s : Sys} {idx : D} {w : World V} {l : List (Item V)} {M : Dir → Text → List Code.Node} {E : Dir → Text → V8.Areas.Elems V}
    (rd : Ready names s w l M E) (ok : IndexOk names s idx l M E) {w' : World V} (h : Unpacked names s idx w l w') : Laid names s (target s.src idx) w l M E w' :=
  laid_at rd ok.placed h

/-! ### the build -/

/-- the job for a file of the product -/
def jobOf (T : Dir → Text → Org.File) (i : Item V) : Job := ⟨(i.1, i.2.1), T i.1 i.2.1⟩

/-- one file is built as it was -/
theorem run_at {names : V → List Text} {s : Sys} {T : Dir → Text → Org.File} {w : World V} {l : List (Item V)} {M : Dir → Text → List Code.Node} {E : Dir → Text → V8.Areas.Elems V}
    (rd : Ready names s w l M E) {w' : World V} (i : Item V) (hi : i ∈ l) (hext : isElem i.2.1 = true → isElem (T i.1 i.2.1).2 = true)
    (hO : ∃ c, Own names s M E i c ∧ w' (T i.1 i.2.1) = some c) (hA : ∀ a ∈ codeAreas s M l, w' a.1 = some (txt s a.2.2))
    (hB : ∀ a ∈ elemAreas names s E l, w' a.1 = some (.elems a.2)) (fuel : Nat)
    (hf : isCode i.2.1 = true → nodesDepth (M i.1 i.2.1) < fuel) : runJob names s w' fuel (jobOf T i) = some i.2.2 := by
  unfold runJob jobOf
  obtain ⟨c, hown, hw⟩ := hO
  rcases Org.kind_cases i.2.1 with ⟨h1, h2⟩ | ⟨h1, h2⟩ | ⟨h1, h2⟩
  · simp only [h1, if_true]
    obtain ⟨m1, m2⟩ := rd.module i hi h1
    obtain ⟨n, rfl⟩ : ∃ n, fuel = n + 1 := ⟨fuel - 1, by have := hf h1; omega⟩
    have hc := own_unique hown (.inl ⟨h1, rfl⟩)
    rw [m1]
    have harea := hA
    unfold codeAreas at harea
    generalize hM : M i.1 i.2.1 = m at *
    have hg := good_of_proper m2.proper
    have hroot : texts w' (T i.1 i.2.1) = some (nodesOwn m).flatten :=
      Org.texts_txt s w' _ _ (fun hc => m2.unix (Org.own_chars m _ hc)) (by rw [hw, hc])
    have hp : packFile s.env (texts w') (n + 1) (T i.1 i.2.1) none = some (text m) := by
      rw [packFile, hroot]
      simp only
      rw [own_proper m hg]
      refine pack_nodes s.env (s.src ++ i.1) (T i.1 i.2.1) (texts w') m false none ?_ _ (fun _ => rfl) hg ?_ n ?_
      · exact Org.wfs_mono (fun b k hk => Or.inl hk) m false none m2.wf
      · intro p hp
        refine Org.texts_txt s w' _ _ (fun hc => m2.unix (Org.area_chars m p hp _ hc)) ?_
        refine harea (parse s.env p.1 (s.src ++ i.1), p.2.1, p.2.2.flatten) (List.mem_flatMap.mpr ⟨i, List.mem_filter.mpr ⟨hi, h1⟩, ?_⟩)
        rw [hM]
        exact List.mem_map.mpr ⟨p, hp, rfl⟩
      · have := hf h1
        omega
    rw [hp]
    rfl
  · simp only [h1, h2, if_true, Bool.false_eq_true, if_false]
    obtain ⟨m1, m2⟩ := rd.form i hi h2
    have hext := hext h2
    have hmem : ∀ a ∈ areasOf names (E i.1 i.2.1), (Org.elemFile s a.1 (s.src ++ i.1), a.2) ∈ elemAreas names s E l := fun a ha =>
      List.mem_flatMap.mpr ⟨i, List.mem_filter.mpr ⟨hi, h2⟩, List.mem_map.mpr ⟨a, ha, rfl⟩⟩
    have harea := fun a ha => hB _ (hmem a ha)
    have hcur := fun a ha => elemFile_cur s a.1 i.1 (T i.1 i.2.1).1 (rd.outsideElems _ (hmem a ha))
    obtain ⟨tree, data, ho, hc⟩ : ∃ tree data, V8.Areas.areasOut names (E i.1 i.2.1).tree [] (E i.1 i.2.1).data = some (tree, data, areasOf names (E i.1 i.2.1)) ∧
        c = .elems ⟨tree, data, (E i.1 i.2.1).extra⟩ := by
      rcases hown with ⟨g, _⟩ | ⟨_, g⟩ | ⟨_, g, _⟩
      · rw [h1] at g; cases g
      · exact g
      · rw [h2] at g; cases g
    rw [m1]
    generalize E i.1 i.2.1 = e at *
    generalize T i.1 i.2.1 = f at *
    have hread : ∀ a ∈ areasOf names e, (fun n => forms w' (elemFile s (ext9 f.2) n f.1)) a.1 = some a.2 := by
      intro a ha
      show forms w' (elemFile s (ext9 f.2) a.1 f.1) = _
      rw [elemFile_eq s _ hext, hcur a ha]
      unfold forms
      rw [harea a ha]
    obtain ⟨X, n1, n2, n3, n4, _⟩ := V8.Areas.areas_rt names (fun n => forms w' (elemFile s (ext9 f.2) n f.1)) e.tree [] e.data data tree _ ho m2.groups hread
    have hmain : forms w' f = some ⟨tree, data, e.extra⟩ := by
      unfold forms
      rw [hw, hc]
    unfold V8.Areas.pack
    rw [hmain]
    simp only
    rw [n4, n3, V8.Areas.putAll_eraseAll e.data X n1 n2]
    rfl
  · simp only [h1, h2, Bool.false_eq_true, if_false]
    rw [hw, own_unique hown (.inr (.inr ⟨h1, h2, rfl⟩))]

/-- one file is built as it was -/
theorem run_one {names : V → List Text} {s : Sys} {idx : D} {T : Dir → Text → Org.File} {w : World V} {l : List (Item V)} {M : Dir → Text → List Code.Node} {E : Dir → Text → V8.Areas.Elems V}
    (rd : Ready names s w l M E) (ok : Placed names s idx T l M E) {w' : World V} (h : Laid names s T w l M E w') (fuel : Nat) (i : Item V) (hi : i ∈ l)
    (hf : isCode i.2.1 = true → nodesDepth (M i.1 i.2.1) < fuel) : runJob names s w' fuel (jobOf T i) = some i.2.2 :=
  run_at rd i hi (ok.ext i hi) (h.own i hi) h.area h.elemArea fuel hf

/-- the jobs of the index -/
theorem index_jobs {names : V → List Text} {s : Sys} {idx : D} {l : List (Item V)} {M : Dir → Text → List Code.Node}
    {E : Dir → Text → V8.Areas.Elems V} (ok : IndexOk names s idx l M E) (cwd : Text → Option (List (Text × Bool))) :
    ∃ ix, indexJobs cwd s.src idx = some ix ∧
      ∀ j, j ∈ ix ↔ ∃ q k e, areasKey ∉ q ++ [k] ∧ e ≠ [] ∧ (J.obj idx).at (q ++ [k]) = some (.str e) ∧ j = ⟨(q, k), named s.src e⟩ := by
  have hix : indexJobs cwd s.src idx = some ((entriesOf idx).map (fun x => ⟨(x.1.dropLast, x.1.getLast?.getD []), entryFile s.src (x.1.getLast?.getD []) x.2⟩)) := by
    unfold indexJobs
    rw [packIndex_tidy cwd idx [] [] ok.tidy, Option.map_some, List.map_map]
    rfl
  refine ⟨_, hix, fun j => ?_⟩
  rw [List.mem_map]
  constructor
  · rintro ⟨⟨x, e⟩, hx, rfl⟩
    obtain ⟨h1, h2, h3, h4⟩ := (mem_entries idx ok.wf x e).mp hx
    have hxx : x.dropLast ++ [x.getLast?.getD []] = x := by
      rw [List.getLast?_eq_some_getLast h1, Option.getD_some, List.dropLast_concat_getLast h1]
    have h4' : (J.obj idx).at (x.dropLast ++ [x.getLast?.getD []]) = some (.str e) := by rw [hxx]; exact h4
    have h2' : areasKey ∉ x.dropLast ++ [x.getLast?.getD []] := by rw [hxx]; exact h2
    refine ⟨x.dropLast, x.getLast?.getD [], e, h2', h3, h4', ?_⟩
    simp only
    rw [entryFile_eq s.src ok.srcNe ok.srcPlain _ _ (ok.clean _ _ _ h2' h4' h3)]
  · rintro ⟨q, k, e, h1, h2, h3, rfl⟩
    refine ⟨(q ++ [k], e), (mem_entries idx ok.wf _ _).mpr ⟨by simp, h1, h2, h3⟩, ?_⟩
    simp only [List.dropLast_concat, List.getLast?_concat, Option.getD_some]
    rw [entryFile_eq s.src ok.srcNe ok.srcPlain _ _ (ok.clean _ _ _ h1 h3 h2)]

theorem target_named {src : Dir} {idx : D} {q : Dir} {k e : Text} (h1 : (J.obj idx).at (q ++ [k]) = some (.str e)) (h2 : e ≠ []) :
    target src idx q k = named src e := by
  unfold target
  rw [h1]
  simp only [if_neg h2]
  rfl

/-- the jobs are those of the files of the product, whether the index or the source folder has them -/
theorem jobs {names : V → List Text} {cwd : Text → Option (List (Text × Bool))} {s : Sys} {idx : D} {w : World V} {l : List (Item V)} {M : Dir → Text → List Code.Node}
    {E : Dir → Text → V8.Areas.Elems V} (ok : IndexOk names s idx l M E) (hk : NoOther idx l) {w' : World V} (h : Laid names s (target s.src idx) w l M E w')
    (ls : List (Dir × Text)) (hls : Listing s w' ls) : ∃ ix, indexJobs cwd s.src idx = some ix ∧ ∀ j, j ∈ ix ++ ownJobs s.src ix ls ↔ ∃ i ∈ l, j = jobOf (target s.src idx) i := by
  obtain ⟨ix, hix, hmem⟩ := index_jobs ok cwd
  refine ⟨ix, hix, ?_⟩
  intro j
  rw [List.mem_append]
  constructor
  · rintro (hj | hj)
    · obtain ⟨q, k, e, h1, h2, h3, rfl⟩ := (hmem j).mp hj
      obtain ⟨c, hc⟩ := hk q k e h1 h3 h2
      exact ⟨_, hc, by rw [jobOf, target_named h3 h2]⟩
    · obtain ⟨f, hf, rfl⟩ := List.mem_map.mp hj
      obtain ⟨c, hc, ht⟩ := h.only f.1 f.2 ((hls f.1 f.2).mp (List.mem_filter.mp hf).1)
      exact ⟨_, hc, by rw [jobOf, ht]⟩
  · rintro ⟨i, hi, rfl⟩
    by_cases he : ∃ e, (J.obj idx).at (i.1 ++ [i.2.1]) = some (.str e) ∧ e ≠ []
    · obtain ⟨e, h1, h2⟩ := he
      exact .inl ((hmem _).mpr ⟨_, _, e, (ok.paths i hi).2, h2, h1, by rw [jobOf, target_named h1 h2]⟩)
    · right
      have ht : target s.src idx i.1 i.2.1 = (s.src ++ i.1, i.2.1) := by
        unfold target
        cases ha : (J.obj idx).at (i.1 ++ [i.2.1]) with
        | none => rfl
        | some v =>
          rcases ok.file i hi v ha with rfl | ⟨e, rfl⟩
          · rfl
          · by_cases h0 : e = []
            · simp only [if_pos h0]
            · exact absurd ⟨e, ha, h0⟩ he
      refine List.mem_map.mpr ⟨(i.1, i.2.1), List.mem_filter.mpr ⟨?_, ?_⟩, by rw [jobOf, ht]⟩
      · refine (hls _ _).mpr (fun hn => ?_)
        obtain ⟨c, _, hw⟩ := h.own i hi
        rw [ht, hn] at hw
        cases hw
      · rw [Bool.not_eq_true', Bool.eq_false_iff]
        intro hany
        obtain ⟨j, hj, hjd⟩ := List.any_eq_true.mp hany
        rw [Bool.and_eq_true, decide_eq_true_eq] at hjd
        obtain ⟨q, k, e, h1, h2, h3, rfl⟩ := (hmem j).mp hj
        have hd : (q, k) = (i.1, i.2.1) := hjd.2
        injection hd with d1 d2
        rw [d1, d2] at h3
        exact he ⟨e, h3, h2⟩

theorem folder_some (L : List ((Dir × Text) × Content V)) (f : Dir × Text) (c : Content V) (h : ∀ x ∈ L, x.1 = f → x.2 = c) (hx : ∃ x ∈ L, x.1 = f) :
    folder L f = some c := by
  unfold folder
  have hne : L.filter (fun x => x.1 = f) ≠ [] := by
    obtain ⟨x, h1, h2⟩ := hx
    exact List.ne_nil_of_mem (List.mem_filter.mpr ⟨h1, decide_eq_true h2⟩)
  rw [List.getLast?_eq_some_getLast hne, Option.map_some]
  have hm := List.mem_filter.mp (List.getLast_mem hne)
  rw [h _ hm.1 (of_decide_eq_true hm.2)]

theorem folder_mem (L : List ((Dir × Text) × Content V)) (f : Dir × Text) (c : Content V) (h : folder L f = some c) : (f, c) ∈ L := by
  unfold folder at h
  rw [Option.map_eq_some_iff] at h
  obtain ⟨x, h1, h2⟩ := h
  have hm := List.mem_filter.mp (List.mem_of_getLast? h1)
  have : x.1 = f := of_decide_eq_true hm.2
  rw [← this, ← h2]
  exact hm.1

theorem runJobs_mem {names : V → List Text} {s : Sys} {w : World V} {fuel : Nat} : ∀ (L : List Job) (r : List ((Dir × Text) × Content V)),
    runJobs names s w fuel L = some r → ∀ x, x ∈ r ↔ ∃ j ∈ L, runJob names s w fuel j = some x.2 ∧ x.1 = j.dest
  | [], r, h, x => by
    rw [runJobs, List.mapM_nil] at h
    cases h
    constructor
    · intro hx; cases hx
    · rintro ⟨j, hj, _⟩; cases hj
  | j :: L, r, h, x => by
    obtain ⟨b, bs, h1, h2, rfl⟩ := Org.mapM_cons _ j L r h
    have ih := runJobs_mem L bs h2 x
    rw [Option.map_eq_some_iff] at h1
    obtain ⟨c, h1, rfl⟩ := h1
    rw [List.mem_cons, ih]
    constructor
    · rintro (rfl | ⟨k, hk, g⟩)
      · exact ⟨j, List.mem_cons_self, h1, rfl⟩
      · exact ⟨k, List.mem_cons_of_mem _ hk, g⟩
    · rintro ⟨k, hk, g1, g2⟩
      rcases List.mem_cons.mp hk with rfl | hk
      · rw [h1] at g1
        left
        exact Prod.ext g2 (Option.some.inj g1).symm
      · exact .inr ⟨k, hk, g1, g2⟩

/-- everything a build writes -/
theorem packed_mem {names : V → List Text} {cwd : Text → Option (List (Text × Bool))} {s : Sys} {idx : D} {w : World V} {ls : List (Dir × Text)} {fuel : Nat}
    {d : Dir × Text → Option (Content V)} (h : Packed names cwd s idx w ls fuel d) :
    ∃ ix L, indexJobs cwd s.src idx = some ix ∧ d = folder L ∧
      ∀ x, x ∈ L ↔ ∃ j ∈ ix ++ ownJobs s.src ix ls, runJob names s w fuel j = some x.2 ∧ x.1 = j.dest := by
  obtain ⟨ix, plain, code, elem, code', elem', h0, h1, h2, h3, p1, p2, rfl⟩ := h
  refine ⟨ix, _, h0, rfl, fun x => ?_⟩
  rw [List.mem_append, List.mem_append, p1.mem_iff, p2.mem_iff, runJobs_mem _ _ h1, runJobs_mem _ _ h2, runJobs_mem _ _ h3]
  constructor
  · rintro ((⟨j, hj, g⟩ | ⟨j, hj, g⟩) | ⟨j, hj, g⟩) <;> exact ⟨j, (List.mem_filter.mp hj).1, g⟩
  · rintro ⟨j, hj, g⟩
    rcases Org.kind_cases j.dest.2 with ⟨k1, k2⟩ | ⟨k1, k2⟩ | ⟨k1, k2⟩
    · exact .inl (.inr ⟨j, List.mem_filter.mpr ⟨hj, k1⟩, g⟩)
    · exact .inr ⟨j, List.mem_filter.mpr ⟨hj, k2⟩, g⟩
    · exact .inl (.inl ⟨j, List.mem_filter.mpr ⟨hj, by simp only [k1, k2]; rfl⟩, g⟩)

theorem back_at {names : V → List Text} {cwd : Text → Option (List (Text × Bool))} {s : Sys} {idx : D} {T : Dir → Text → Org.File} {w w' : World V} {l : List (Item V)}
    {M : Dir → Text → List Code.Node} {E : Dir → Text → V8.Areas.Elems V} (rd : Ready names s w l M E) (ok : Placed names s idx T l M E) (hl : Laid names s T w l M E w')
    {ls : List (Dir × Text)} {fuel : Nat} (hf : ∀ i ∈ l, isCode i.2.1 = true → nodesDepth (M i.1 i.2.1) < fuel) {ix : List Job} (h0' : indexJobs cwd s.src idx = some ix)
    (hj : ∀ j, j ∈ ix ++ ownJobs s.src ix ls ↔ ∃ i ∈ l, j = jobOf T i) {d : Dir × Text → Option (Content V)} (hd : Packed names cwd s idx w' ls fuel d) :
    ∀ p n c, d (p, n) = some c ↔ (p, n, c) ∈ l := by
  obtain ⟨ix, L, h0, rfl, hL⟩ := packed_mem hd
  rw [h0] at h0'
  cases h0'
  have hx : ∀ x, x ∈ L ↔ (x.1.1, x.1.2, x.2) ∈ l := by
    intro x
    rw [hL]
    constructor
    · rintro ⟨j, hm, g1, g2⟩
      obtain ⟨i, hi, rfl⟩ := (hj j).mp hm
      rw [run_one rd ok hl fuel i hi (hf i hi)] at g1
      rw [g2, ← Option.some.inj g1]
      exact hi
    · intro hi
      exact ⟨_, (hj _).mpr ⟨_, hi, rfl⟩, run_one rd ok hl fuel _ hi (hf _ hi), rfl⟩
  intro p n c
  constructor
  · intro hc
    exact (hx _).mp (folder_mem L _ c hc)
  · intro hc
    refine folder_some L _ c (fun x hm he => ?_) ⟨((p, n), c), (hx _).mpr hc, rfl⟩
    have hxl := (hx x).mp hm
    have := Org.item_eq rd.distinct hxl hc (by rw [he]) (by rw [he])
    injection this with _ this
    injection this

/-- **C74.**  A folder laid out by an extraction with an index is put together by the build with that index as it was: the same files under the same paths,
each with the same content, whatever was in the source folder or elsewhere before, wherever the index puts the files, in every order in which files are
listed and tasks run. -/
theorem C74_folder_back (names : V → List Text) (cwd : Text → Option (List (Text × Bool))) (s : Sys) (idx : D) (w w' : World V) (l : List (Item V))
    (M : Dir → Text → List Code.Node) (E : Dir → Text → V8.Areas.Elems V) (rd : Ready names s w l M E) (ok : IndexOk names s idx l M E) (hk : NoOther idx l)
    (h : Unpacked names s idx w l w') (ls : List (Dir × Text)) (hls : Listing s w' ls) (fuel : Nat)
    (hf : ∀ i ∈ l, isCode i.2.1 = true → nodesDepth (M i.1 i.2.1) < fuel) (d : Dir × Text → Option (Content V)) (hd : Packed names cwd s idx w' ls fuel d) :
    ∀ p n c, d (p, n) = some c ↔ (p, n, c) ∈ l := by
  have hl := laid rd ok h
  obtain ⟨ix', h0', hj⟩ := jobs (cwd := cwd) ok hk hl ls hls
  exact back_at rd ok.placed hl hf h0' hj hd

/-- **C74, where the files go.**  After the extraction every file of the product is where the index says, or at its own path in the source folder, less what
went to the areas. -/
theorem C74_where (names : V → List Text) (s : Sys) (idx : D) (w w' : World V) (l : List (Item V)) (M : Dir → Text → List Code.Node)
    (E : Dir → Text → V8.Areas.Elems V) (rd : Ready names s w l M E) (ok : IndexOk names s idx l M E) (h : Unpacked names s idx w l w') (i : Item V) (hi : i ∈ l) :
    ∃ c, Own names s M E i c ∧ w' (target s.src idx i.1 i.2.1) = some c := (laid rd ok h).own i hi

/-- **C74, the rest.**  Extraction with an index changes nothing outside the source folder but the files the index names for files of the product, and the
files of the areas. -/
theorem C74_outside_kept (names : V → List Text) (s : Sys) (idx : D) (w w' : World V) (l : List (Item V)) (M : Dir → Text → List Code.Node)
    (E : Dir → Text → V8.Areas.Elems V) (rd : Ready names s w l M E) (ok : IndexOk names s idx l M E) (h : Unpacked names s idx w l w') (f : Org.File)
    (hf : ¬ s.src <+: f.1) (h0 : ∀ i ∈ l, f ≠ target s.src idx i.1 i.2.1) (h1 : f ∉ (codeAreas s M l).map (·.1)) (h2 : f ∉ (elemAreas names s E l).map (·.1)) :
    w' f = w f := (laid rd ok h).rest f hf h0 h1 h2

theorem schedule_at {names : V → List Text} {s : Sys} {T : Dir → Text → Org.File} {w w1 w2 : World V} {l : List (Item V)} {M : Dir → Text → List Code.Node}
    {E : Dir → Text → V8.Areas.Elems V} (l1 : Laid names s T w l M E w1) (l2 : Laid names s T w l M E w2) : w1 = w2 := by
  funext f
  by_cases ht : ∃ i ∈ l, f = T i.1 i.2.1
  · obtain ⟨i, hi, rfl⟩ := ht
    obtain ⟨c1, o1, e1⟩ := l1.own i hi
    obtain ⟨c2, o2, e2⟩ := l2.own i hi
    rw [e1, e2, own_unique o1 o2]
  by_cases hf : s.src <+: f.1
  · obtain ⟨p, hp⟩ := hf
    obtain ⟨d, n⟩ := f
    simp only at hp
    subst hp
    have n1 : w1 (s.src ++ p, n) = none := Classical.byContradiction (fun hn => by
      obtain ⟨c, hc, he⟩ := l1.only p n hn
      exact ht ⟨_, hc, he.symm⟩)
    have n2 : w2 (s.src ++ p, n) = none := Classical.byContradiction (fun hn => by
      obtain ⟨c, hc, he⟩ := l2.only p n hn
      exact ht ⟨_, hc, he.symm⟩)
    rw [n1, n2]
  · by_cases hc : f ∈ (codeAreas s M l).map (·.1)
    · obtain ⟨a, ha, rfl⟩ := List.mem_map.mp hc
      rw [l1.area a ha, l2.area a ha]
    · by_cases he : f ∈ (elemAreas names s E l).map (·.1)
      · obtain ⟨a, ha, rfl⟩ := List.mem_map.mp he
        rw [l1.elemArea a ha, l2.elemArea a ha]
      · have h0 : ∀ i ∈ l, f ≠ T i.1 i.2.1 := fun i hi e => ht ⟨i, hi, e⟩
        rw [l1.rest f hf h0 hc he, l2.rest f hf h0 hc he]

/-- **C74, any schedule.**  The files after extraction do not depend on the order in which the tasks write. -/
theorem C74_any_schedule (names : V → List Text) (s : Sys) (idx : D) (w w1 w2 : World V) (l : List (Item V)) (M : Dir → Text → List Code.Node)
    (E : Dir → Text → V8.Areas.Elems V) (rd : Ready names s w l M E) (ok : IndexOk names s idx l M E) (h1 : Unpacked names s idx w l w1)
    (h2 : Unpacked names s idx w l w2) : w1 = w2 := schedule_at (laid rd ok h1) (laid rd ok h2)

theorem unpack_at {names : V → List Text} {s : Sys} {idx : D} {T : Dir → Text → Org.File} {w : World V} {l : List (Item V)} {M : Dir → Text → List Code.Node}
    {E : Dir → Text → V8.Areas.Elems V} (rd : Ready names s w l M E) (ok : Placed names s idx T l M E)
    (hd : ∀ i ∈ l, isElem i.2.1 = true → V8.Areas.areasOut names (E i.1 i.2.1).tree [] (E i.1 i.2.1).data ≠ none) : ∃ w', Unpacked names s idx w l w' := by
  obtain ⟨p, hp⟩ := Org.mapM_ex (plainWrites s idx) (l.filter (fun i => !isCode i.2.1 && !isElem i.2.1)) (by
    intro i hi
    exact ⟨_, by unfold plainWrites; rw [ok.home i (List.mem_filter.mp hi).1]; rfl⟩)
  obtain ⟨c, hc⟩ := Org.mapM_ex (codeWrites s idx) (l.filter (fun i => isCode i.2.1)) (by
    intro i hi
    obtain ⟨h1, h2⟩ := List.mem_filter.mp hi
    obtain ⟨m1, m2⟩ := rd.module i h1 h2
    obtain ⟨u, hu, _⟩ := code_writes s idx i _ m1 m2 _ (ok.home i h1)
    exact ⟨u, hu⟩)
  obtain ⟨e, he⟩ := Org.mapM_ex (elemWrites names s idx) (l.filter (fun i => isElem i.2.1)) (by
    intro i hi
    obtain ⟨h1, h2⟩ := List.mem_filter.mp hi
    obtain ⟨m1, m2⟩ := rd.form i h1 h2
    have := hd i h1 h2
    unfold elemWrites
    rw [m1]
    cases ho : V8.Areas.areasOut names (E i.1 i.2.1).tree [] (E i.1 i.2.1).data with
    | none => exact absurd ho this
    | some q => exact ⟨_, by simp only [ho, Option.bind_some, ok.home i h1, Option.map_some]; rfl⟩)
  exact ⟨_, p.flatten, c.flatten, e.flatten, _, _, by rw [tasks, hp]; rfl, by rw [tasks, hc]; rfl, by rw [tasks, he]; rfl, .refl _, .refl _, rfl⟩

theorem listing_at {names : V → List Text} {s : Sys} {T : Dir → Text → Org.File} {w w' : World V} {l : List (Item V)} {M : Dir → Text → List Code.Node}
    {E : Dir → Text → V8.Areas.Elems V} (hl : Laid names s T w l M E w') : ∃ ls, Listing s w' ls := by
  refine ⟨(l.filter (fun i => decide (T i.1 i.2.1 = (s.src ++ i.1, i.2.1)))).map (fun i => (i.1, i.2.1)), fun p n => ?_⟩
  rw [List.mem_map]
  constructor
  · rintro ⟨i, hi, he⟩
    injection he with e1 e2
    subst e1; subst e2
    obtain ⟨h1, h2⟩ := List.mem_filter.mp hi
    obtain ⟨c, _, hw⟩ := hl.own i h1
    rw [of_decide_eq_true h2] at hw
    rw [hw]
    exact Option.some_ne_none _
  · intro hn
    obtain ⟨c, hc, ht⟩ := hl.only p n hn
    exact ⟨_, List.mem_filter.mpr ⟨hc, decide_eq_true ht⟩, rfl⟩

theorem pack_at {names : V → List Text} {cwd : Text → Option (List (Text × Bool))} {s : Sys} {idx : D} {T : Dir → Text → Org.File} {w w' : World V} {l : List (Item V)}
    {M : Dir → Text → List Code.Node} {E : Dir → Text → V8.Areas.Elems V} (rd : Ready names s w l M E) (ok : Placed names s idx T l M E) (hl : Laid names s T w l M E w')
    {ls : List (Dir × Text)} {fuel : Nat} (hf : ∀ i ∈ l, isCode i.2.1 = true → nodesDepth (M i.1 i.2.1) < fuel) {ix : List Job} (h0 : indexJobs cwd s.src idx = some ix)
    (hj : ∀ j, j ∈ ix ++ ownJobs s.src ix ls ↔ ∃ i ∈ l, j = jobOf T i) : ∃ d, Packed names cwd s idx w' ls fuel d := by
  have hrun : ∀ P : Job → Bool, ∃ r, runJobs names s w' fuel ((ix ++ ownJobs s.src ix ls).filter P) = some r := by
    intro P
    refine Org.mapM_ex _ _ (fun j hm => ?_)
    obtain ⟨i, hi, rfl⟩ := (hj j).mp (List.mem_filter.mp hm).1
    exact ⟨_, by rw [run_one rd ok hl fuel i hi (hf i hi)]; rfl⟩
  obtain ⟨a, ha⟩ := hrun (fun j => !isCode j.dest.2 && !isElem j.dest.2)
  obtain ⟨b, hb⟩ := hrun (fun j => isCode j.dest.2)
  obtain ⟨c, hc⟩ := hrun (fun j => isElem j.dest.2)
  exact ⟨_, ix, a, b, c, b, c, h0, ha, hb, hc, .refl _, .refl _, rfl⟩

/-- **C74, it runs.**  Neither the extraction nor the build fails, provided the elements of the forms can be divided. -/
theorem C74_runs (names : V → List Text) (cwd : Text → Option (List (Text × Bool))) (s : Sys) (idx : D) (w : World V) (l : List (Item V))
    (M : Dir → Text → List Code.Node) (E : Dir → Text → V8.Areas.Elems V) (rd : Ready names s w l M E) (ok : IndexOk names s idx l M E) (hk : NoOther idx l)
    (hd : ∀ i ∈ l, isElem i.2.1 = true → V8.Areas.areasOut names (E i.1 i.2.1).tree [] (E i.1 i.2.1).data ≠ none) (fuel : Nat)
    (hf : ∀ i ∈ l, isCode i.2.1 = true → nodesDepth (M i.1 i.2.1) < fuel) :
    (∃ w', Unpacked names s idx w l w') ∧
    ∀ w', Unpacked names s idx w l w' → (∃ ls, Listing s w' ls) ∧ ∀ ls, Listing s w' ls → ∃ d, Packed names cwd s idx w' ls fuel d := by
  refine ⟨unpack_at rd ok.placed hd, fun w' hu => ⟨listing_at (laid rd ok hu), fun ls hls => ?_⟩⟩
  obtain ⟨ix, h0, hj⟩ := jobs (cwd := cwd) ok hk (laid rd ok hu) ls hls
  exact pack_at rd ok.placed (laid rd ok hu) hf h0 hj

/-- **C74 is false of an index with an entry for a file the product no longer has.**  Extraction does not touch the file the entry names; the build puts it
into the product under the old path, or fails if the file is not there. -/
theorem C74_stale_entry_neg (names : V → List Text) (cwd : Text → Option (List (Text × Bool))) (s : Sys) (idx : D) (w w' : World V) (l : List (Item V))
    (M : Dir → Text → List Code.Node) (E : Dir → Text → V8.Areas.Elems V) (rd : Ready names s w l M E) (ok : IndexOk names s idx l M E)
    (h : Unpacked names s idx w l w') (q : Dir) (k e : Text) (hq : areasKey ∉ q ++ [k]) (he : (J.obj idx).at (q ++ [k]) = some (.str e)) (hne : e ≠ [])
    (hplain : isCode k = false ∧ isElem k = false) (_hgone : ∀ c, (q, k, c) ∉ l)
    (h0 : ¬ s.src <+: (named s.src e).1) (h1 : ∀ i ∈ l, named s.src e ≠ target s.src idx i.1 i.2.1)
    (h2 : named s.src e ∉ (codeAreas s M l).map (·.1)) (h3 : named s.src e ∉ (elemAreas names s E l).map (·.1))
    (ls : List (Dir × Text)) (fuel : Nat) (d : Dir × Text → Option (Content V)) (hd : Packed names cwd s idx w' ls fuel d) :
    w (named s.src e) ≠ none ∧ d (q, k) = w (named s.src e) := by
  have hw : w' (named s.src e) = w (named s.src e) := (laid rd ok h).rest _ h0 h1 h2 h3
  obtain ⟨ix, hix, hmem⟩ := index_jobs ok cwd
  have hj : (⟨(q, k), named s.src e⟩ : Job) ∈ ix := (hmem _).mpr ⟨q, k, e, hq, hne, he, rfl⟩
  have hrun : runJob names s w' fuel ⟨(q, k), named s.src e⟩ = w (named s.src e) := by
    unfold runJob
    simp only [hplain.1, hplain.2, Bool.false_eq_true, if_false]
    exact hw
  have hsome : w (named s.src e) ≠ none := by
    obtain ⟨ix', plain, code, elem, code', elem', g0, g1, _⟩ := hd
    rw [hix] at g0
    cases g0
    intro hn
    have hall : ∀ (L : List Job) r, runJobs names s w' fuel L = some r → ∀ j ∈ L, runJob names s w' fuel j ≠ none := by
      intro L
      induction L with
      | nil => intro r _ j hj; cases hj
      | cons a L ih =>
        intro r hr j hj
        obtain ⟨b, bs, r1, r2, rfl⟩ := Org.mapM_cons _ a L r hr
        rcases List.mem_cons.mp hj with rfl | hj
        · intro hn
          rw [hn] at r1
          cases r1
        · exact ih bs r2 j hj
    refine hall _ _ g1 ⟨(q, k), named s.src e⟩ (List.mem_filter.mpr ⟨List.mem_append_left _ hj, ?_⟩) (hrun.trans hn)
    simp only [hplain.1, hplain.2]
    rfl
  refine ⟨hsome, ?_⟩
  obtain ⟨ix', L, g0, rfl, hL⟩ := packed_mem hd
  rw [hix] at g0
  cases g0
  cases hc : w (named s.src e) with
  | none => exact absurd hc hsome
  | some c =>
    refine folder_some L _ c (fun x hx hf => ?_) ⟨((q, k), c), (hL _).mpr ⟨_, List.mem_append_left _ hj, hrun.trans hc, rfl⟩, rfl⟩
    obtain ⟨j, hjm, r1, r2⟩ := (hL x).mp hx
    rcases List.mem_append.mp hjm with hjm | hjm
    · obtain ⟨q', k', e', _, _, a3, rfl⟩ := (hmem j).mp hjm
      have hdest : (q', k') = (q, k) := r2.symm.trans hf
      injection hdest with d1 d2
      subst d1; subst d2
      rw [he] at a3
      cases a3
      rw [hrun, hc] at r1
      exact (Option.some.inj r1).symm
    · obtain ⟨f, hfm, rfl⟩ := List.mem_map.mp hjm
      have hfe : f = (q, k) := r2.symm.trans hf
      have := (List.mem_filter.mp hfm).2
      rw [Bool.not_eq_true', Bool.eq_false_iff] at this
      refine absurd (List.any_eq_true.mpr ⟨_, hj, ?_⟩) this
      have hnq : isQueued k = false := by
        unfold isQueued
        have h1 : ends ".bsl".toList k = false := hplain.1
        have h2 := hplain.2
        unfold isElem at h2
        rw [hplain.1, Bool.not_false, Bool.true_and] at h2
        rw [h1, h2]
        rfl
      rw [hnq, hfe, Bool.not_false, Bool.true_and]
      exact decide_eq_true rfl

theorem pack_needs (e : Code.Env) (fs : FS) (fuel : Nat) (f : Dir × Text) (d : Option Text) (t : Text) (h : packFile e fs fuel f d = some t) :
    ∃ u, fs f = some u ∧ ∀ line ∈ Brace.lines u, ∀ key d', included line = some (key, d') → fs (parse e key f.1) ≠ none := by
  cases fuel with
  | zero => cases h
  | succ n =>
    rw [packFile] at h
    cases hu : fs f with
    | none => rw [hu] at h; cases h
    | some u =>
      rw [hu] at h
      simp only at h
      refine ⟨u, rfl, ?_⟩
      generalize Brace.lines u = L at h ⊢
      induction L generalizing t with
      | nil => intro line hl; cases hl
      | cons a r ih =>
        intro line hl key d' hi
        rw [packLines] at h
        cases hin : included a with
        | none =>
          rw [hin] at h
          simp only [Option.map_eq_some_iff] at h
          obtain ⟨x, hx, _⟩ := h
          rcases List.mem_cons.mp hl with rfl | hl
          · rw [hin] at hi; cases hi
          · exact ih x hx line hl key d' hi
        | some kd =>
          obtain ⟨k1, d1⟩ := kd
          rw [hin] at h
          simp only at h
          cases hb : packFile e fs n (parse e k1 f.1) (d1.or d) with
          | none => rw [hb] at h; cases h
          | some body =>
            rw [hb] at h
            simp only [Option.map_eq_some_iff] at h
            obtain ⟨x, hx, _⟩ := h
            rcases List.mem_cons.mp hl with rfl | hl
            · rw [hin] at hi
              cases hi
              intro hn
              cases n with
              | zero => cases hb
              | succ n => rw [packFile, hn] at hb; cases hb
            · exact ih x hx line hl key d' hi

/-- **C74 is false of a module that the index moves and that has an area named by one word.**  Extraction writes the area next to the module's place in the
source folder; the build looks for it next to the file the index names, and fails if it is not there. -/
theorem C74_moved_area_neg (names : V → List Text) (cwd : Text → Option (List (Text × Bool))) (s : Sys) (idx : D) (w : World V) (l : List (Item V))
    (M : Dir → Text → List Code.Node) (E : Dir → Text → V8.Areas.Elems V) (ok : IndexOk names s idx l M E)
    (q : Dir) (k e : Text) (hq : areasKey ∉ q ++ [k]) (he : (J.obj idx).at (q ++ [k]) = some (.str e)) (hne : e ≠ []) (hcode : isCode k = true)
    (u line key : Text) (d' : Option Text) (hu : texts w (named s.src e) = some u) (hl : line ∈ Brace.lines u) (hi : included line = some (key, d'))
    (hone : '_' ∉ s.env.name key) (hno : w ((named s.src e).1, s.env.name key ++ ".bsl".toList) = none) :
    parse s.env key (s.src ++ q) = (s.src ++ q, s.env.name key ++ ".bsl".toList) ∧
    ∀ ls fuel d, ¬ Packed names cwd s idx w ls fuel d := by
  have hpar : ∀ cur, parse s.env key cur = (cur, s.env.name key ++ ".bsl".toList) := by
    intro cur
    have hdesc : s.env.descent = false := ok.flat
    unfold parse
    rw [Org.split_none _ _ hone, hdesc]
    rfl
  refine ⟨hpar _, fun ls fuel d hd => ?_⟩
  obtain ⟨ix, plain, code, elem, code', elem', g0, _, g2, _⟩ := hd
  obtain ⟨ix', hix, hmem⟩ := index_jobs ok cwd
  rw [hix] at g0
  cases g0
  have hj : (⟨(q, k), named s.src e⟩ : Job) ∈ (ix ++ ownJobs s.src ix ls).filter (fun j => isCode j.dest.2) :=
    List.mem_filter.mpr ⟨List.mem_append_left _ ((hmem _).mpr ⟨q, k, e, hq, hne, he, rfl⟩), hcode⟩
  have hrun : ∀ (L : List Job) r, runJobs names s w fuel L = some r → ∀ j ∈ L, runJob names s w fuel j ≠ none := by
    intro L
    induction L with
    | nil => intro r _ j hj; cases hj
    | cons a L ih =>
      intro r hr j hj
      obtain ⟨b, bs, r1, r2, rfl⟩ := Org.mapM_cons _ a L r hr
      rcases List.mem_cons.mp hj with rfl | hj
      · intro hn
        rw [hn] at r1
        cases r1
      · exact ih bs r2 j hj
  refine hrun _ _ g2 _ hj ?_
  unfold runJob
  simp only [hcode, if_true]
  rw [Option.map_eq_none_iff]
  cases hp : packFile s.env (texts w) fuel (named s.src e) none with
  | none => rfl
  | some t =>
    obtain ⟨u', hu', hall⟩ := pack_needs _ _ _ _ _ _ hp
    rw [hu] at hu'
    cases hu'
    have := hall line hl key d' hi
    rw [hpar] at this
    unfold texts at this
    rw [hno] at this
    exact absurd rfl this

end V8.OrgIndex
