import Verif.Org
import Verif.CodeLemmas
import Verif.Props.Areas
import Verif.ModuleLemmas
/-
C66: the organizer for a whole folder.  What extraction lays out in the source folder, and in the shared files of the areas, is what the build puts
together again.
-/
namespace V8.Org
open V8.Str V8.Enc V8.Code V8.Brace

variable {V : Type}

/-! ### specification -/

/-- the areas of the elements of a form, with what goes to their files -/
def areasOf (names : V → List Text) (e : V8.Areas.Elems V) : List (Text × V8.Areas.Elems V) := match V8.Areas.areasOut names e.tree [] e.data with
  | some q => q.2.2
  | none => []

/-- a module that survives: balanced, its areas with distinct names that are paths, no carriage returns, no byte order mark -/
structure ModuleOk (s : Sys) (m : List Node) : Prop where
  wf : WFs (fun _ k => Anywhere s.env k) false none m
  proper : ProperLines (nodesLines m)
  names : ("root".toList :: (nodesAreas m).map (·.1)).Nodup
  unix : '\r' ∉ text m
  noBom : (text m).head? ≠ some bom

/-- elements that survive: areas are groups that may be written, with distinct names -/
structure FormOk (e : V8.Areas.Elems V) : Prop where
  groups : ∀ a ∈ V8.Areas.areaList e.tree, a.1 = true ∧ a.2.2 = true
  noRoot : ∀ a ∈ V8.Areas.areaList e.tree, a.2.1 ≠ V8.Areas.rootWord
  once : ((V8.Areas.areaList e.tree).map (·.2.1)).Nodup

/-- all areas of all modules: the file, the kind, the text -/
def codeAreas (s : Sys) (M : Dir → Text → List Node) (l : List (Item V)) : List (File × AreaType × Text) :=
  (l.filter (fun i => isCode i.2.1)).flatMap (fun i => (nodesAreas (M i.1 i.2.1)).map (fun p => (parse s.env p.1 (s.src ++ i.1), p.2.1, p.2.2.flatten)))

/-- all areas of all forms: the file, the elements -/
def elemAreas (names : V → List Text) (s : Sys) (E : Dir → Text → V8.Areas.Elems V) (l : List (Item V)) : List (File × V8.Areas.Elems V) :=
  (l.filter (fun i => isElem i.2.1)).flatMap (fun i => (areasOf names (E i.1 i.2.1)).map (fun a => (elemFile s a.1 (s.src ++ i.1), a.2)))

/-- a folder that survives: `M` and `E` are what its modules and its files of elements hold -/
structure Ready (names : V → List Text) (s : Sys) (w : World V) (l : List (Item V)) (M : Dir → Text → List Node)
    (E : Dir → Text → V8.Areas.Elems V) : Prop where
  distinct : (l.map (fun i => (i.1, i.2.1))).Nodup
  module : ∀ i ∈ l, isCode i.2.1 = true → i.2.2 = txt s (text (M i.1 i.2.1)) ∧ ModuleOk s (M i.1 i.2.1)
  form : ∀ i ∈ l, isElem i.2.1 = true → i.2.2 = .elems (E i.1 i.2.1) ∧ FormOk (E i.1 i.2.1)
  /-- the files of the areas lie outside of the folder of the sources -/
  outside : ∀ a ∈ codeAreas s M l, ¬ s.src <+: a.1.1
  outsideElems : ∀ a ∈ elemAreas names s E l, ¬ s.src <+: a.1.1
  /-- areas that share a file have the same content -/
  shared : ∀ a ∈ codeAreas s M l, ∀ b ∈ codeAreas s M l, a.1 = b.1 → a.2.2 = b.2.2
  sharedElems : ∀ a ∈ elemAreas names s E l, ∀ b ∈ elemAreas names s E l, a.1 = b.1 → a.2 = b.2
  /-- an area that is only read has its text in its file, or the same run writes it -/
  readonly : ∀ a ∈ codeAreas s M l, a.2.1 = .incr → (∃ b ∈ codeAreas s M l, b.2.1 = .incl ∧ b.1 = a.1) ∨ w a.1 = some (txt s a.2.2)

/-! ### writing -/

theorem puts_none (f : File) : ∀ (l : List (Write V)) (w : World V), (∀ x ∈ l, x.1 ≠ f) → puts w l f = w f
  | [], _, _ => rfl
  | x :: l, w, h => by
    show puts (put w x) l f = w f
    rw [puts_none f l _ (fun y hy => h y (List.mem_cons_of_mem _ hy))]
    exact if_neg (fun e => h x List.mem_cons_self e.symm)

theorem puts_val (f : File) (c : Content V) : ∀ (l : List (Write V)) (w : World V), (∀ x ∈ l, x.1 = f → x.2 = c) → (∃ x ∈ l, x.1 = f) ∨ w f = some c →
    puts w l f = some c
  | [], w, _, h => by
    rcases h with ⟨x, hx, _⟩ | h
    · cases hx
    · exact h
  | x :: l, w, h, hx => by
    show puts (put w x) l f = some c
    refine puts_val f c l _ (fun y hy => h y (List.mem_cons_of_mem _ hy)) ?_
    by_cases hf : x.1 = f
    · right
      show (if f = x.1 then some x.2 else w f) = some c
      rw [if_pos hf.symm, h x List.mem_cons_self hf]
    · rcases hx with ⟨y, hy, he⟩ | hw
      · rcases List.mem_cons.mp hy with rfl | hy
        · exact absurd he hf
        · exact .inl ⟨y, hy, he⟩
      · right
        show (if f = x.1 then some x.2 else w f) = some c
        rw [if_neg (fun e => hf e.symm)]
        exact hw

theorem mapM_cons {α β : Type} (g : α → Option β) (a : α) (l : List α) (r : List β) (h : (a :: l).mapM g = some r) :
    ∃ b bs, g a = some b ∧ l.mapM g = some bs ∧ r = b :: bs := by
  rw [List.mapM_cons] at h
  cases h1 : g a with
  | none => rw [h1] at h; cases h
  | some b =>
    rw [h1] at h
    cases h2 : l.mapM g with
    | none => rw [h2] at h; cases h
    | some bs =>
      rw [h2] at h
      cases h
      exact ⟨b, bs, rfl, rfl, rfl⟩

/-- the writes of the tasks -/
theorem tasks_mem (g : Item V → Option (List (Write V))) : ∀ (l : List (Item V)) (ws : List (Write V)), tasks g l = some ws →
    (∀ i ∈ l, ∃ u, g i = some u ∧ ∀ x ∈ u, x ∈ ws) ∧ ∀ x ∈ ws, ∃ i ∈ l, ∃ u, g i = some u ∧ x ∈ u
  | [], ws, h => by
    rw [tasks, List.mapM_nil] at h
    cases h
    exact ⟨(fun i hi => by cases hi), (fun x hx => by cases hx)⟩
  | i :: l, ws, h => by
    rw [tasks] at h
    cases h1 : (i :: l).mapM g with
    | none => rw [h1] at h; cases h
    | some r =>
      rw [h1] at h
      obtain ⟨b, bs, h2, h3, rfl⟩ := mapM_cons g i l r h1
      have ih := tasks_mem g l bs.flatten (by rw [tasks, h3]; rfl)
      have hw : ws = b ++ bs.flatten := by
        have : some ((b :: bs).flatten) = some ws := h
        rw [List.flatten_cons] at this
        exact (Option.some.inj this).symm
      rw [hw]
      refine ⟨?_, ?_⟩
      · intro j hj
        rcases List.mem_cons.mp hj with rfl | hj
        · exact ⟨b, h2, fun x hx => List.mem_append_left _ hx⟩
        · obtain ⟨u, h4, h5⟩ := ih.1 j hj
          exact ⟨u, h4, fun x hx => List.mem_append_right _ (h5 x hx)⟩
      · intro x hx
        rcases List.mem_append.mp hx with hx | hx
        · exact ⟨i, List.mem_cons_self, b, h2, hx⟩
        · obtain ⟨j, hj, u, h4, h5⟩ := ih.2 x hx
          exact ⟨j, List.mem_cons_of_mem _ hj, u, h4, h5⟩

/-! ### modules -/

mutual
theorem wf_mono {ok ok' : Bool → Text → Prop} (h : ∀ b k, ok b k → ok' b k) : ∀ (n : Node) (nested : Bool) (d : Option Text), WF ok nested d n → WF ok' nested d n
  | .line l, nested, d, hw => by rw [WF] at hw ⊢; exact hw
  | .region a b z, nested, d, hw => by
    rw [WF] at hw ⊢
    exact ⟨hw.1, hw.2.1, hw.2.2.1, hw.2.2.2.1, wfs_mono h b nested d hw.2.2.2.2⟩
  | .area a b z, nested, d, hw => by
    rw [WF] at hw ⊢
    obtain ⟨h1, h2, h3, typ, key, d', h4, h5, h6, h7⟩ := hw
    exact ⟨h1, h2, h3, typ, key, d', h4, h5, h _ _ h6, wfs_mono h b true _ h7⟩
theorem wfs_mono {ok ok' : Bool → Text → Prop} (h : ∀ b k, ok b k → ok' b k) : ∀ (m : List Node) (nested : Bool) (d : Option Text), WFs ok nested d m → WFs ok' nested d m
  | [], _, _, _ => by rw [WFs]; trivial
  | n :: r, nested, d, hw => by
    rw [WFs] at hw ⊢
    exact ⟨wf_mono h n nested d hw.1, wfs_mono h r nested d hw.2⟩
end

theorem own_chars (m : List Node) (c : Char) (h : c ∈ (nodesOwn m).flatten) : c ∈ text m := by
  rw [nodesOwn_eq, List.mem_flatten] at h
  obtain ⟨l, hl, hc⟩ := h
  obtain ⟨l', hl', rfl⟩ := List.mem_map.mp hl
  exact List.mem_flatten.mpr ⟨l', (nodesOwnRaw_sub m).subset hl', (dynStrip_suffix l').subset hc⟩

mutual
theorem area_chars1 : ∀ (n : Node) (p : Text × AreaType × List Text), p ∈ n.areas → ∀ c ∈ p.2.2.flatten, c ∈ n.lines.flatten
  | .line l, p, hp, _, _ => by rw [Node.areas] at hp; cases hp
  | .region a b z, p, hp, c, hc => by
    rw [Node.areas] at hp
    have := area_chars b p hp c hc
    rw [Node.lines, List.cons_append, List.flatten_cons, List.flatten_append]
    exact List.mem_append_right _ (List.mem_append_left _ this)
  | .area a b z, p, hp, c, hc => by
    have key : c ∈ (nodesLines b).flatten := by
      rw [Node.areas] at hp
      cases hk : kind a with
      | area typ key d =>
        rw [hk] at hp
        rcases List.mem_cons.mp hp with rfl | hp
        · exact own_chars b c hc
        · exact area_chars b p hp c hc
      | region => rw [hk] at hp; exact area_chars b p hp c hc
      | close => rw [hk] at hp; exact area_chars b p hp c hc
      | other => rw [hk] at hp; exact area_chars b p hp c hc
    rw [Node.lines, List.cons_append, List.flatten_cons, List.flatten_append]
    exact List.mem_append_right _ (List.mem_append_left _ key)
theorem area_chars : ∀ (m : List Node) (p : Text × AreaType × List Text), p ∈ nodesAreas m → ∀ c ∈ p.2.2.flatten, c ∈ (nodesLines m).flatten
  | [], p, hp, _, _ => by rw [nodesAreas] at hp; cases hp
  | n :: r, p, hp, c, hc => by
    rw [nodesAreas] at hp
    rw [nodesLines, List.flatten_append]
    rcases List.mem_append.mp hp with hp | hp
    · exact List.mem_append_left _ (area_chars1 n p hp c hc)
    · exact List.mem_append_right _ (area_chars r p hp c hc)
end

theorem read_txt (s : Sys) (t : Text) (hr : '\r' ∉ t) : (utf8Text (utf8 (osWrite s.win t))).map universal = some t := by
  rw [utf8Text_utf8, Option.map_some, V8.Module.universal_osWrite s.win t hr]

/-- what is written for a module -/
theorem code_writes (s : Sys) (i : Item V) (m : List Node) (hc : i.2.2 = txt s (text m)) (ok : ModuleOk s m) :
    ∃ u, codeWrites s i = some u ∧ ∀ x, x ∈ u ↔ (x = ((s.src ++ i.1, i.2.1), txt s (nodesOwn m).flatten) ∨
      ∃ p ∈ nodesAreas m, p.2.1 = .incl ∧ x = (parse s.env p.1 (s.src ++ i.1), txt s p.2.2.flatten)) := by
  unfold codeWrites
  rw [hc, txt]
  simp only
  have hd : dropBom (osWrite s.win (text m)) = osWrite s.win (text m) := by
    rw [dropBom, if_neg (fun h => ok.noBom ((V8.Module.osWrite_head s.win (text m)).mp h))]
  rw [utf8SigText_utf8, hd, Option.bind_some, V8.Module.universal_osWrite s.win _ ok.unix, unpack_module _ m ok.wf ok.proper ok.names, Option.map_some]
  refine ⟨_, rfl, fun x => ?_⟩
  have hroot : ∀ p ∈ nodesAreas m, p.1 ≠ "root".toList := fun p hp he =>
    (List.nodup_cons.mp ok.names).1 (he ▸ List.mem_map.mpr ⟨p, hp, rfl⟩)
  rw [List.mem_filterMap]
  constructor
  · rintro ⟨q, hq, hx⟩
    rcases List.mem_cons.mp hq with rfl | hq
    · rw [if_pos rfl] at hx
      exact .inl (Option.some.inj hx).symm
    right
    rw [entries, List.mem_map] at hq
    obtain ⟨p, hp, rfl⟩ := hq
    rw [if_neg (hroot p hp)] at hx
    cases ht : p.2.1 with
    | incr =>
      simp only [ht, if_true] at hx
      cases hx
    | incl =>
      simp only [ht, reduceCtorEq, if_false] at hx
      exact ⟨p, hp, ht, (Option.some.inj hx).symm⟩
  · rintro (rfl | ⟨p, hp, ht, rfl⟩)
    · exact ⟨("root".toList, ⟨.incl, (nodesOwn m).flatten⟩), List.mem_cons_self, if_pos rfl⟩
    refine ⟨(p.1, ⟨p.2.1, p.2.2.flatten⟩), List.mem_cons_of_mem _ <| by rw [entries]; exact List.mem_map.mpr ⟨p, hp, rfl⟩, ?_⟩
    rw [if_neg (hroot p hp)]
    simp only [ht, reduceCtorEq, if_false]

/-! ### elements -/

/-- what is written for the elements of a form -/
theorem elem_writes (names : V → List Text) (s : Sys) (i : Item V) (e : V8.Areas.Elems V) (hc : i.2.2 = .elems e) (ok : FormOk e) (u : List (Write V))
    (h : elemWrites names s i = some u) :
    ∃ tree data, V8.Areas.areasOut names e.tree [] e.data = some (tree, data, areasOf names e) ∧
      ∀ x, x ∈ u ↔ (x = ((s.src ++ i.1, i.2.1), .elems ⟨tree, data, e.extra⟩) ∨
        ∃ a ∈ areasOf names e, x = (elemFile s a.1 (s.src ++ i.1), .elems a.2)) := by
  unfold elemWrites at h
  rw [hc] at h
  simp only at h
  unfold areasOf
  cases ho : V8.Areas.areasOut names e.tree [] e.data with
  | none => rw [ho] at h; cases h
  | some q =>
    obtain ⟨tree, data, areas⟩ := q
    rw [ho, Option.map_some] at h
    simp only at h
    have hnames : areas.map (·.1) = (V8.Areas.areaList e.tree).map (·.2.1) :=
      V8.Areas.areaNames_eq names e.tree [] e.data data tree areas ho ok.groups
    have hn2 : ∀ a ∈ areas, a.1 ≠ V8.Areas.rootWord := by
      intro a ha he
      have : a.1 ∈ (V8.Areas.areaList e.tree).map (·.2.1) := by rw [← hnames]; exact List.mem_map.mpr ⟨a, ha, rfl⟩
      obtain ⟨b, hb, hba⟩ := List.mem_map.mp this
      exact ok.noRoot b hb (hba.trans he)
    have hf := V8.Areas.foldl_assign areas [] (by rw [List.nil_append, hnames]; exact ok.once)
    rw [List.nil_append] at hf
    rw [hf, V8.Areas.assign_new _ _ _ (fun hm => by obtain ⟨a, ha, he⟩ := List.mem_map.mp hm; exact hn2 a ha he), Option.some.injEq] at h
    refine ⟨tree, data, rfl, fun x => ?_⟩
    rw [← h, List.mem_map]
    constructor
    · rintro ⟨a, ha, rfl⟩
      rcases List.mem_append.mp ha with ha | ha
      · right
        refine ⟨a, ha, ?_⟩
        rw [if_neg (hn2 a ha)]
      · left
        rw [List.mem_singleton.mp ha, if_pos rfl]
    · rintro (rfl | ⟨a, ha, rfl⟩)
      · refine ⟨(V8.Areas.rootWord, ⟨tree, data, e.extra⟩), List.mem_append_right _ (List.mem_singleton.mpr rfl), ?_⟩
        rw [if_pos rfl]
      · refine ⟨a, List.mem_append_left _ ha, ?_⟩
        rw [if_neg (hn2 a ha)]

/-! ### names -/

theorem ends_append (a n : Text) : ends a (n ++ a) = true := by
  rw [ends, List.isSuffixOf_iff_suffix]
  exact ⟨n, rfl⟩

theorem bsl_ne_json (a b : Text) : a ++ ".bsl".toList ≠ b ++ ".elem.json".toList := by
  intro h
  have := congrArg List.getLast? h
  rw [List.getLast?_append_of_ne_nil _ (by decide), List.getLast?_append_of_ne_nil _ (by decide)] at this
  revert this
  decide

theorem parse_ne_elem (s : Sys) (k k' : Text) (c c' : Dir) : parse s.env k c ≠ elemFile s k' c' := by
  intro h
  exact bsl_ne_json _ _ (congrArg Prod.snd h)

/-! ### the folder after extraction -/

theorem kind_cases (n : Text) : (isCode n = true ∧ isElem n = false) ∨ (isCode n = false ∧ isElem n = true) ∨ (isCode n = false ∧ isElem n = false) := by
  unfold isElem
  cases isCode n <;> simp

/-- where the writes of a run go: to the file they stand for, or to the file of an area -/
structure Laid (names : V → List Text) (s : Sys) (w : World V) (l : List (Item V)) (M : Dir → Text → List Node) (E : Dir → Text → V8.Areas.Elems V)
    (w' : World V) : Prop where
  plain : ∀ i ∈ l, isCode i.2.1 = false → isElem i.2.1 = false → w' (s.src ++ i.1, i.2.1) = some i.2.2
  code : ∀ i ∈ l, isCode i.2.1 = true → w' (s.src ++ i.1, i.2.1) = some (txt s (nodesOwn (M i.1 i.2.1)).flatten)
  elem : ∀ i ∈ l, isElem i.2.1 = true → ∃ tree data, V8.Areas.areasOut names (E i.1 i.2.1).tree [] (E i.1 i.2.1).data =
    some (tree, data, areasOf names (E i.1 i.2.1)) ∧ w' (s.src ++ i.1, i.2.1) = some (.elems ⟨tree, data, (E i.1 i.2.1).extra⟩)
  area : ∀ a ∈ codeAreas s M l, w' a.1 = some (txt s a.2.2)
  elemArea : ∀ a ∈ elemAreas names s E l, w' a.1 = some (.elems a.2)
  only : ∀ p n, w' (s.src ++ p, n) ≠ none → ∃ c, (p, n, c) ∈ l
  rest : ∀ f, ¬ s.src <+: f.1 → f ∉ (codeAreas s M l).map (·.1) → f ∉ (elemAreas names s E l).map (·.1) → w' f = w f

theorem item_eq {l : List (Item V)} (h : (l.map (fun i => (i.1, i.2.1))).Nodup) {i j : Item V} (hi : i ∈ l) (hj : j ∈ l) (h1 : i.1 = j.1) (h2 : i.2.1 = j.2.1) :
    i = j := by
  induction l with
  | nil => cases hi
  | cons a l ih =>
    rw [List.map_cons, List.nodup_cons] at h
    rcases List.mem_cons.mp hi with rfl | hi'
    · rcases List.mem_cons.mp hj with rfl | hj'
      · rfl
      · exact absurd (List.mem_map.mpr ⟨j, hj', by rw [h1, h2]⟩) h.1
    · rcases List.mem_cons.mp hj with rfl | hj'
      · exact absurd (List.mem_map.mpr ⟨i, hi', by rw [h1, h2]⟩) h.1
      · exact ih h.2 hi' hj'

theorem file_inj {src p q : Dir} {n m : Text} (h : ((src ++ p, n) : File) = (src ++ q, m)) : p = q ∧ n = m := by
  injection h with h1 h2
  exact ⟨List.append_cancel_left h1, h2⟩

/-- the state of the files after extraction -/
theorem laid {names : V → List Text} {s : Sys} {w : World V} {l : List (Item V)} {M : Dir → Text → List Node} {E : Dir → Text → V8.Areas.Elems V}
    (ok : Ready names s w l M E) {w' : World V} (h : Unpacked names s w l w') : Laid names s w l M E w' := by
  obtain ⟨code, elem, code', elem', hc, he, pc, pe, rfl⟩ := h
  obtain ⟨c1, c2⟩ := tasks_mem _ _ _ hc
  obtain ⟨e1, e2⟩ := tasks_mem _ _ _ he
  -- the writes, by membership
  have hcode : ∀ x, x ∈ code' → ∃ i ∈ l, isCode i.2.1 = true ∧ (x = ((s.src ++ i.1, i.2.1), txt s (nodesOwn (M i.1 i.2.1)).flatten) ∨
      ∃ a ∈ codeAreas s M l, x = (a.1, txt s a.2.2)) := by
    intro x hx
    obtain ⟨i, hi, u, hu, hxu⟩ := c2 x (pc.mem_iff.mp hx)
    rw [List.mem_filter] at hi
    obtain ⟨m1, m2⟩ := ok.module i hi.1 hi.2
    obtain ⟨u', hu', hm⟩ := code_writes s i _ m1 m2
    rw [hu] at hu'
    cases hu'
    refine ⟨i, hi.1, hi.2, ?_⟩
    rcases (hm x).mp hxu with h | ⟨p, hp, ht, rfl⟩
    · exact .inl h
    · right
      exact ⟨_, List.mem_flatMap.mpr ⟨i, List.mem_filter.mpr hi, List.mem_map.mpr ⟨p, hp, rfl⟩⟩, rfl⟩
  have helem : ∀ x, x ∈ elem' → ∃ i ∈ l, isElem i.2.1 = true ∧ ((∃ tree data, V8.Areas.areasOut names (E i.1 i.2.1).tree [] (E i.1 i.2.1).data =
      some (tree, data, areasOf names (E i.1 i.2.1)) ∧ x = ((s.src ++ i.1, i.2.1), .elems ⟨tree, data, (E i.1 i.2.1).extra⟩)) ∨
      ∃ a ∈ elemAreas names s E l, x = (a.1, .elems a.2)) := by
    intro x hx
    obtain ⟨i, hi, u, hu, hxu⟩ := e2 x (pe.mem_iff.mp hx)
    rw [List.mem_filter] at hi
    obtain ⟨m1, m2⟩ := ok.form i hi.1 hi.2
    obtain ⟨tree, data, ho, hm⟩ := elem_writes names s i _ m1 m2 u hu
    refine ⟨i, hi.1, hi.2, ?_⟩
    rcases (hm x).mp hxu with h | ⟨a, ha, rfl⟩
    · exact .inl ⟨tree, data, ho, h⟩
    · right
      exact ⟨_, List.mem_flatMap.mpr ⟨i, List.mem_filter.mpr hi, List.mem_map.mpr ⟨a, ha, rfl⟩⟩, rfl⟩
  have hplain : ∀ x, x ∈ plainWrites s l → ∃ i ∈ l, isCode i.2.1 = false ∧ isElem i.2.1 = false ∧ x = ((s.src ++ i.1, i.2.1), i.2.2) := by
    intro x hx
    obtain ⟨i, hi, rfl⟩ := List.mem_map.mp hx
    rw [List.mem_filter, Bool.and_eq_true, Bool.not_eq_true', Bool.not_eq_true'] at hi
    exact ⟨i, hi.1, hi.2.1, hi.2.2, rfl⟩
  have pre : ∀ p : Dir, s.src <+: s.src ++ p := fun p => List.prefix_append _ _
  have hall : ∀ x, x ∈ plainWrites s l ++ code' ++ elem' → x ∈ plainWrites s l ∨ x ∈ code' ∨ x ∈ elem' := by
    intro x hx
    rcases List.mem_append.mp hx with hx | hx
    · rcases List.mem_append.mp hx with hx | hx
      · exact .inl hx
      · exact .inr (.inl hx)
    · exact .inr (.inr hx)
  have hclear : ∀ f : File, ¬ s.src <+: f.1 → clear s w f = w f := fun f hf => if_neg hf
  refine ⟨?_, ?_, ?_, ?_, ?_, ?_, ?_⟩
  · intro i hi h1 h2
    refine puts_val _ _ _ _ (fun x hx hf => ?_) (.inl ⟨((s.src ++ i.1, i.2.1), i.2.2), ?_, rfl⟩)
    · rcases hall x hx with hx | hx | hx
      · obtain ⟨j, hj, _, _, rfl⟩ := hplain x hx
        obtain ⟨g1, g2⟩ := file_inj hf
        rw [item_eq ok.distinct hj hi g1 g2]
      · obtain ⟨j, hj, hk, rfl | ⟨a, ha, rfl⟩⟩ := hcode x hx
        · obtain ⟨g1, g2⟩ := file_inj hf
          rw [g2, h1] at hk
          cases hk
        · exact absurd (by rw [show a.1.1 = s.src ++ i.1 from congrArg Prod.fst hf]; exact pre _) (ok.outside a ha)
      · obtain ⟨j, hj, hk, ⟨tree, data, _, rfl⟩ | ⟨a, ha, rfl⟩⟩ := helem x hx
        · obtain ⟨g1, g2⟩ := file_inj hf
          rw [g2, h2] at hk
          cases hk
        · exact absurd (by rw [show a.1.1 = s.src ++ i.1 from congrArg Prod.fst hf]; exact pre _) (ok.outsideElems a ha)
    · refine List.mem_append_left _ (List.mem_append_left _ (List.mem_map.mpr ⟨i, List.mem_filter.mpr ⟨hi, ?_⟩, rfl⟩))
      rw [h1, h2]; rfl
  · intro i hi h1
    obtain ⟨m1, m2⟩ := ok.module i hi h1
    obtain ⟨u, hu, hm⟩ := code_writes s i _ m1 m2
    obtain ⟨u', hu', hin⟩ := c1 i (List.mem_filter.mpr ⟨hi, h1⟩)
    rw [hu] at hu'
    cases hu'
    refine puts_val _ _ _ _ (fun x hx hf => ?_) (.inl ⟨_, List.mem_append_left _ (List.mem_append_right _ (pc.mem_iff.mpr (hin _ ((hm _).mpr (.inl rfl))))), rfl⟩)
    rcases hall x hx with hx | hx | hx
    · obtain ⟨j, hj, hk, _, rfl⟩ := hplain x hx
      obtain ⟨g1, g2⟩ := file_inj hf
      rw [g2, h1] at hk
      cases hk
    · obtain ⟨j, hj, hk, rfl | ⟨a, ha, rfl⟩⟩ := hcode x hx
      · obtain ⟨g1, g2⟩ := file_inj hf
        rw [g1, g2]
      · exact absurd (by rw [show a.1.1 = s.src ++ i.1 from congrArg Prod.fst hf]; exact pre _) (ok.outside a ha)
    · obtain ⟨j, hj, hk, ⟨tree, data, _, rfl⟩ | ⟨a, ha, rfl⟩⟩ := helem x hx
      · obtain ⟨g1, g2⟩ := file_inj hf
        rw [g2] at hk
        rcases kind_cases i.2.1 with h | h | h
        · rw [h.2] at hk; cases hk
        · rw [h.1] at h1; cases h1
        · rw [h.2] at hk; cases hk
      · exact absurd (by rw [show a.1.1 = s.src ++ i.1 from congrArg Prod.fst hf]; exact pre _) (ok.outsideElems a ha)
  · intro i hi h1
    have h0 : isCode i.2.1 = false := by
      rcases kind_cases i.2.1 with h | h | h
      · rw [h.2] at h1; cases h1
      · exact h.1
      · exact h.1
    obtain ⟨m1, m2⟩ := ok.form i hi h1
    obtain ⟨u, hu, hin⟩ := e1 i (List.mem_filter.mpr ⟨hi, h1⟩)
    obtain ⟨tree, data, ho, hm⟩ := elem_writes names s i _ m1 m2 u hu
    refine ⟨tree, data, ho, puts_val _ _ _ _ (fun x hx hf => ?_) (.inl ⟨_, List.mem_append_right _ (pe.mem_iff.mpr (hin _ ((hm _).mpr (.inl rfl)))), rfl⟩)⟩
    rcases hall x hx with hx | hx | hx
    · obtain ⟨j, hj, _, hk, rfl⟩ := hplain x hx
      obtain ⟨g1, g2⟩ := file_inj hf
      rw [g2, h1] at hk
      cases hk
    · obtain ⟨j, hj, hk, rfl | ⟨a, ha, rfl⟩⟩ := hcode x hx
      · obtain ⟨g1, g2⟩ := file_inj hf
        rw [g2, h0] at hk
        cases hk
      · exact absurd (by rw [show a.1.1 = s.src ++ i.1 from congrArg Prod.fst hf]; exact pre _) (ok.outside a ha)
    · obtain ⟨j, hj, hk, ⟨tree', data', ho', rfl⟩ | ⟨a, ha, rfl⟩⟩ := helem x hx
      · obtain ⟨g1, g2⟩ := file_inj hf
        rw [g1, g2, ho] at ho'
        cases ho'
        rw [g1, g2]
      · exact absurd (by rw [show a.1.1 = s.src ++ i.1 from congrArg Prod.fst hf]; exact pre _) (ok.outsideElems a ha)
  · intro a ha
    have hout := ok.outside a ha
    have hname : ∃ k c, a.1 = parse s.env k c := by
      obtain ⟨i, _, hp⟩ := List.mem_flatMap.mp ha
      obtain ⟨p, _, rfl⟩ := List.mem_map.mp hp
      exact ⟨_, _, rfl⟩
    have hval : ∀ x ∈ plainWrites s l ++ code' ++ elem', x.1 = a.1 → x.2 = txt s a.2.2 := by
      intro x hx hf
      rcases hall x hx with hx | hx | hx
      · obtain ⟨j, hj, _, _, rfl⟩ := hplain x hx
        exact absurd (by rw [← show s.src ++ j.1 = a.1.1 from congrArg Prod.fst hf]; exact pre _) hout
      · obtain ⟨j, hj, hk, rfl | ⟨b, hb, rfl⟩⟩ := hcode x hx
        · exact absurd (by rw [← show s.src ++ j.1 = a.1.1 from congrArg Prod.fst hf]; exact pre _) hout
        · show txt s b.2.2 = _
          rw [ok.shared b hb a ha hf]
      · obtain ⟨j, hj, hk, ⟨tree, data, _, rfl⟩ | ⟨b, hb, rfl⟩⟩ := helem x hx
        · exact absurd (by rw [← show s.src ++ j.1 = a.1.1 from congrArg Prod.fst hf]; exact pre _) hout
        · obtain ⟨k, c, hk⟩ := hname
          obtain ⟨i, _, hp⟩ := List.mem_flatMap.mp hb
          obtain ⟨p, _, rfl⟩ := List.mem_map.mp hp
          exact absurd (hk.symm.trans hf.symm) (parse_ne_elem s _ _ _ _)
    have hwr : ∀ b ∈ codeAreas s M l, b.2.1 = .incl → ∃ x ∈ plainWrites s l ++ code' ++ elem', x.1 = b.1 := by
      intro b hb ht
      obtain ⟨i, hi, hp⟩ := List.mem_flatMap.mp hb
      obtain ⟨p, hp', rfl⟩ := List.mem_map.mp hp
      have hi' := List.mem_filter.mp hi
      obtain ⟨m1, m2⟩ := ok.module i hi'.1 hi'.2
      obtain ⟨u, hu, hm⟩ := code_writes s i _ m1 m2
      obtain ⟨u', hu', hin⟩ := c1 i hi
      rw [hu] at hu'
      cases hu'
      exact ⟨_, List.mem_append_left _ (List.mem_append_right _ (pc.mem_iff.mpr (hin _ ((hm _).mpr (.inr ⟨p, hp', ht, rfl⟩))))), rfl⟩
    refine puts_val _ _ _ _ hval ?_
    cases ht : a.2.1 with
    | incl => exact .inl (hwr a ha ht)
    | incr =>
      rcases ok.readonly a ha ht with ⟨b, hb, hb1, hb2⟩ | hw
      · obtain ⟨x, hx, he⟩ := hwr b hb hb1
        exact .inl ⟨x, hx, he.trans hb2⟩
      · right
        rw [hclear _ hout]
        exact hw
  · intro a ha
    have hout := ok.outsideElems a ha
    obtain ⟨i, hi, hp⟩ := List.mem_flatMap.mp ha
    obtain ⟨p, hp, hpe⟩ := List.mem_map.mp hp
    have hi' := List.mem_filter.mp hi
    obtain ⟨m1, m2⟩ := ok.form i hi'.1 hi'.2
    obtain ⟨u, hu, hin⟩ := e1 i hi
    obtain ⟨tree, data, ho, hm⟩ := elem_writes names s i _ m1 m2 u hu
    refine puts_val _ _ _ _ (fun x hx hf => ?_) (.inl ⟨_, List.mem_append_right _ (pe.mem_iff.mpr (hin _ ((hm _).mpr (.inr ⟨p, hp, rfl⟩)))),
      congrArg Prod.fst hpe⟩)
    rcases hall x hx with hx | hx | hx
    · obtain ⟨j, hj, _, _, rfl⟩ := hplain x hx
      exact absurd (by rw [← show s.src ++ j.1 = a.1.1 from congrArg Prod.fst hf]; exact pre _) hout
    · obtain ⟨j, hj, hk, rfl | ⟨b, hb, rfl⟩⟩ := hcode x hx
      · exact absurd (by rw [← show s.src ++ j.1 = a.1.1 from congrArg Prod.fst hf]; exact pre _) hout
      · obtain ⟨j', _, hq⟩ := List.mem_flatMap.mp hb
        obtain ⟨q, _, rfl⟩ := List.mem_map.mp hq
        exact absurd (hf.trans (congrArg Prod.fst hpe).symm) (parse_ne_elem s _ _ _ _)
    · obtain ⟨j, hj, hk, ⟨tree, data, _, rfl⟩ | ⟨b, hb, rfl⟩⟩ := helem x hx
      · exact absurd (by rw [← show s.src ++ j.1 = a.1.1 from congrArg Prod.fst hf]; exact pre _) hout
      · show Content.elems b.2 = _
        rw [ok.sharedElems b hb a ha hf]
  · intro p n hne
    by_cases hx : ∃ x ∈ plainWrites s l ++ code' ++ elem', x.1 = (s.src ++ p, n)
    · obtain ⟨x, hx, hf⟩ := hx
      rcases hall x hx with hx | hx | hx
      · obtain ⟨j, hj, _, _, rfl⟩ := hplain x hx
        obtain ⟨rfl, rfl⟩ := file_inj hf
        exact ⟨_, hj⟩
      · obtain ⟨j, hj, hk, rfl | ⟨a, ha, rfl⟩⟩ := hcode x hx
        · obtain ⟨rfl, rfl⟩ := file_inj hf
          exact ⟨_, hj⟩
        · exact absurd (by rw [show a.1.1 = s.src ++ p from congrArg Prod.fst hf]; exact pre _) (ok.outside a ha)
      · obtain ⟨j, hj, hk, ⟨tree, data, _, rfl⟩ | ⟨a, ha, rfl⟩⟩ := helem x hx
        · obtain ⟨rfl, rfl⟩ := file_inj hf
          exact ⟨_, hj⟩
        · exact absurd (by rw [show a.1.1 = s.src ++ p from congrArg Prod.fst hf]; exact pre _) (ok.outsideElems a ha)
    · refine absurd ?_ hne
      rw [puts_none _ _ _ (fun x hm he => hx ⟨x, hm, he⟩)]
      exact if_pos (pre p)
  · intro f hf h1 h2
    rw [puts_none, hclear f hf]
    intro x hx he
    rcases hall x hx with hx | hx | hx
    · obtain ⟨j, hj, _, _, rfl⟩ := hplain x hx
      exact hf (he ▸ pre j.1)
    · obtain ⟨j, hj, hk, rfl | ⟨a, ha, rfl⟩⟩ := hcode x hx
      · exact hf (he ▸ pre j.1)
      · exact h1 (List.mem_map.mpr ⟨a, ha, he⟩)
    · obtain ⟨j, hj, hk, ⟨tree, data, _, rfl⟩ | ⟨a, ha, rfl⟩⟩ := helem x hx
      · exact hf (he ▸ pre j.1)
      · exact h2 (List.mem_map.mpr ⟨a, ha, he⟩)

/-! ### the build -/

theorem texts_txt (s : Sys) (w : World V) (f : File) (t : Text) (hr : '\r' ∉ t) (h : w f = some (txt s t)) : texts w f = some t := by
  unfold texts
  rw [h, txt]
  exact read_txt s t hr

/-- one file is built as it was -/
theorem pack_one {names : V → List Text} {s : Sys} {w : World V} {l : List (Item V)} {M : Dir → Text → List Node} {E : Dir → Text → V8.Areas.Elems V}
    (ok : Ready names s w l M E) {w' : World V} (h : Laid names s w l M E w') (fuel : Nat) (i : Item V) (hi : i ∈ l)
    (hf : isCode i.2.1 = true → nodesDepth (M i.1 i.2.1) < fuel) : packOne names s w' fuel (i.1, i.2.1) = some i.2.2 := by
  unfold packOne
  rcases kind_cases i.2.1 with ⟨h1, h2⟩ | ⟨h1, h2⟩ | ⟨h1, h2⟩
  · simp only [h1, if_true]
    obtain ⟨m1, m2⟩ := ok.module i hi h1
    obtain ⟨n, rfl⟩ : ∃ n, fuel = n + 1 := ⟨fuel - 1, by have := hf h1; omega⟩
    rw [m1]
    generalize hM : M i.1 i.2.1 = m at *
    have hg := good_of_proper m2.proper
    have hroot : texts w' (s.src ++ i.1, i.2.1) = some (nodesOwn m).flatten :=
      texts_txt s w' _ _ (fun hc => m2.unix (own_chars m _ hc)) (by rw [← hM]; exact h.code i hi h1)
    have hp : packFile s.env (texts w') (n + 1) (s.src ++ i.1, i.2.1) none = some (text m) := by
      rw [packFile, hroot]
      simp only
      rw [own_proper m hg]
      refine pack_nodes s.env (s.src ++ i.1) (s.src ++ i.1, i.2.1) (texts w') m false none ?_ (s.src ++ i.1) (fun _ => rfl) hg ?_ n ?_
      · exact wfs_mono (fun b k hk => Or.inl hk) m false none m2.wf
      · intro p hp
        refine texts_txt s w' _ _ (fun hc => m2.unix (area_chars m p hp _ hc)) ?_
        refine h.area (parse s.env p.1 (s.src ++ i.1), p.2.1, p.2.2.flatten) (List.mem_flatMap.mpr ⟨i, List.mem_filter.mpr ⟨hi, h1⟩, ?_⟩)
        rw [hM]
        exact List.mem_map.mpr ⟨p, hp, rfl⟩
      · have := hf h1
        omega
    rw [hp]
    rfl
  · simp only [h1, h2, if_true, Bool.false_eq_true, if_false]
    obtain ⟨m1, m2⟩ := ok.form i hi h2
    obtain ⟨tree, data, ho, hw⟩ := h.elem i hi h2
    rw [m1]
    have harea := fun a ha => h.elemArea (elemFile s a.1 (s.src ++ i.1), a.2) (List.mem_flatMap.mpr ⟨i, List.mem_filter.mpr ⟨hi, h2⟩,
      List.mem_map.mpr ⟨a, ha, rfl⟩⟩)
    generalize E i.1 i.2.1 = e at *
    have hread : ∀ a ∈ areasOf names e, (fun n => forms w' (elemFile s n (s.src ++ i.1))) a.1 = some a.2 := by
      intro a ha
      show forms w' (elemFile s a.1 (s.src ++ i.1)) = _
      unfold forms
      rw [harea a ha]
    obtain ⟨X, n1, n2, n3, n4, _⟩ := V8.Areas.areas_rt names (fun n => forms w' (elemFile s n (s.src ++ i.1))) e.tree [] e.data data tree _ ho m2.groups hread
    have hmain : forms w' (s.src ++ i.1, i.2.1) = some ⟨tree, data, e.extra⟩ := by
      unfold forms
      rw [hw]
    unfold V8.Areas.pack
    rw [hmain]
    simp only
    rw [n4, n3, V8.Areas.putAll_eraseAll e.data X n1 n2]
    rfl
  · simp only [h1, h2, Bool.false_eq_true, if_false]
    exact h.plain i hi h1 h2

theorem pack_all {names : V → List Text} {s : Sys} {w : World V} {fuel : Nat} {l : List (Item V)} (hd : (l.map (fun i => (i.1, i.2.1))).Nodup) :
    ∀ (ls : List (Dir × Text)), (∀ f ∈ ls, ∃ c, (f.1, f.2, c) ∈ l ∧ packOne names s w fuel f = some c) →
    ∃ d, pack names s w fuel ls = some d ∧ ∀ f, d f = if f ∈ ls then packOne names s w fuel f else none
  | [], _ => ⟨_, rfl, fun f => by rw [if_neg List.not_mem_nil]⟩
  | f :: r, h => by
    obtain ⟨d, h1, h2⟩ := pack_all hd r (fun g hg => h g (List.mem_cons_of_mem _ hg))
    obtain ⟨c, hc, hp⟩ := h f List.mem_cons_self
    rw [pack, hp]
    simp only
    rw [h1, Option.map_some]
    refine ⟨_, rfl, fun g => ?_⟩
    rw [h2 g]
    by_cases hg : g ∈ r
    · rw [if_pos hg, if_pos (List.mem_cons_of_mem _ hg)]
      obtain ⟨c', _, hp'⟩ := h g (List.mem_cons_of_mem _ hg)
      rw [hp']
      rfl
    · rw [if_neg hg, Option.none_or]
      by_cases hf : g = f
      · rw [if_pos hf, if_pos (List.mem_cons.mpr (.inl hf)), hf, hp]
      · rw [if_neg hf, if_neg (fun hm => by rcases List.mem_cons.mp hm with h | h; exact hf h; exact hg h)]

/-- **C66.**  A folder laid out by the extraction is put together by the build as it was: the same files under the same paths, each with the same
content - copied files and modules byte for byte, files of elements with the same elements - whatever was in the source folder or elsewhere before, for
every order in which the files are listed and the tasks run, and whatever is shared between the modules and forms, as long as what is shared is equal. -/
theorem C66_folder_back (names : V → List Text) (s : Sys) (w w' : World V) (l : List (Item V)) (M : Dir → Text → List Node)
    (E : Dir → Text → V8.Areas.Elems V) (ok : Ready names s w l M E) (h : Unpacked names s w l w') (ls : List (Dir × Text)) (hls : Listing s w' ls)
    (fuel : Nat) (hf : ∀ i ∈ l, isCode i.2.1 = true → nodesDepth (M i.1 i.2.1) < fuel) :
    ∃ d, pack names s w' fuel ls = some d ∧ ∀ p n c, d (p, n) = some c ↔ (p, n, c) ∈ l := by
  have hl := laid ok h
  obtain ⟨d, h1, h2⟩ := pack_all (names := names) (s := s) (w := w') (fuel := fuel) ok.distinct ls (by
    rintro ⟨p, n⟩ hm
    obtain ⟨c, hc⟩ := hl.only p n ((hls p n).mp hm)
    exact ⟨c, hc, pack_one ok hl fuel (p, n, c) hc (hf _ hc)⟩)
  refine ⟨d, h1, fun p n c => ?_⟩
  rw [h2]
  constructor
  · intro hc
    by_cases hm : (p, n) ∈ ls
    · rw [if_pos hm] at hc
      obtain ⟨c', hc'⟩ := hl.only p n ((hls p n).mp hm)
      rw [pack_one ok hl fuel (p, n, c') hc' (hf _ hc')] at hc
      cases hc
      exact hc'
    · rw [if_neg hm] at hc
      cases hc
  · intro hm
    have hp := pack_one ok hl fuel (p, n, c) hm (hf _ hm)
    rw [if_pos, hp]
    refine (hls p n).mpr (fun hn => ?_)
    rcases kind_cases n with ⟨k1, k2⟩ | ⟨k1, k2⟩ | ⟨k1, k2⟩
    · rw [hl.code (p, n, c) hm k1] at hn; cases hn
    · obtain ⟨tree, data, _, hw⟩ := hl.elem (p, n, c) hm k2
      rw [hw] at hn; cases hn
    · rw [hl.plain (p, n, c) hm k1 k2] at hn; cases hn

/-- **C66, the files outside.**  Extraction touches nothing outside the source folder but the files of the areas. -/
theorem C66_outside_kept (names : V → List Text) (s : Sys) (w w' : World V) (l : List (Item V)) (M : Dir → Text → List Node)
    (E : Dir → Text → V8.Areas.Elems V) (ok : Ready names s w l M E) (h : Unpacked names s w l w') (f : File) (hf : ¬ s.src <+: f.1)
    (h1 : f ∉ (codeAreas s M l).map (·.1)) (h2 : f ∉ (elemAreas names s E l).map (·.1)) : w' f = w f := (laid ok h).rest f hf h1 h2

/-- **C66, any schedule.**  The files after extraction do not depend on the order in which the tasks write. -/
theorem C66_any_schedule (names : V → List Text) (s : Sys) (w w1 w2 : World V) (l : List (Item V)) (M : Dir → Text → List Node)
    (E : Dir → Text → V8.Areas.Elems V) (ok : Ready names s w l M E) (h1 : Unpacked names s w l w1) (h2 : Unpacked names s w l w2) : w1 = w2 := by
  have l1 := laid ok h1
  have l2 := laid ok h2
  funext f
  by_cases hf : s.src <+: f.1
  · obtain ⟨p, hp⟩ := hf
    obtain ⟨d, n⟩ := f
    simp only at hp
    subst hp
    by_cases hm : ∃ c, (p, n, c) ∈ l
    · obtain ⟨c, hm⟩ := hm
      rcases kind_cases n with ⟨k1, k2⟩ | ⟨k1, k2⟩ | ⟨k1, k2⟩
      · rw [l1.code _ hm k1, l2.code _ hm k1]
      · obtain ⟨t1, d1, o1, e1⟩ := l1.elem _ hm k2
        obtain ⟨t2, d2, o2, e2⟩ := l2.elem _ hm k2
        rw [o1] at o2
        cases o2
        exact e1.trans e2.symm
      · rw [l1.plain _ hm k1 k2, l2.plain _ hm k1 k2]
    · have n1 : w1 (s.src ++ p, n) = none := Classical.byContradiction (fun hn => hm (l1.only p n hn))
      have n2 : w2 (s.src ++ p, n) = none := Classical.byContradiction (fun hn => hm (l2.only p n hn))
      rw [n1, n2]
  · by_cases hc : f ∈ (codeAreas s M l).map (·.1)
    · obtain ⟨a, ha, rfl⟩ := List.mem_map.mp hc
      rw [l1.area a ha, l2.area a ha]
    · by_cases he : f ∈ (elemAreas names s E l).map (·.1)
      · obtain ⟨a, ha, rfl⟩ := List.mem_map.mp he
        rw [l1.elemArea a ha, l2.elemArea a ha]
      · rw [l1.rest f hf hc he, l2.rest f hf hc he]

theorem mapM_ex {α β : Type} (g : α → Option β) : ∀ l : List α, (∀ a ∈ l, ∃ b, g a = some b) → ∃ r, l.mapM g = some r
  | [], _ => ⟨[], rfl⟩
  | a :: l, h => by
    obtain ⟨b, hb⟩ := h a List.mem_cons_self
    obtain ⟨r, hr⟩ := mapM_ex g l (fun x hx => h x (List.mem_cons_of_mem _ hx))
    exact ⟨b :: r, by rw [List.mapM_cons, hb, hr]; rfl⟩

/-- **C66, it runs.**  The extraction of such a folder does not fail, provided the elements of the forms can be divided; and the files it leaves can be listed. -/
theorem C66_runs (names : V → List Text) (s : Sys) (w : World V) (l : List (Item V)) (M : Dir → Text → List Node)
    (E : Dir → Text → V8.Areas.Elems V) (ok : Ready names s w l M E)
    (hd : ∀ i ∈ l, isElem i.2.1 = true → V8.Areas.areasOut names (E i.1 i.2.1).tree [] (E i.1 i.2.1).data ≠ none) :
    ∃ w', Unpacked names s w l w' ∧ Listing s w' (l.map (fun i => (i.1, i.2.1))) := by
  obtain ⟨c, hc⟩ := mapM_ex (codeWrites s) (l.filter (fun i => isCode i.2.1)) (by
    intro i hi
    obtain ⟨h1, h2⟩ := List.mem_filter.mp hi
    obtain ⟨m1, m2⟩ := ok.module i h1 h2
    obtain ⟨u, hu, _⟩ := code_writes s i _ m1 m2
    exact ⟨u, hu⟩)
  obtain ⟨e, he⟩ := mapM_ex (elemWrites names s) (l.filter (fun i => isElem i.2.1)) (by
    intro i hi
    obtain ⟨h1, h2⟩ := List.mem_filter.mp hi
    obtain ⟨m1, m2⟩ := ok.form i h1 h2
    have := hd i h1 h2
    unfold elemWrites
    rw [m1]
    cases ho : V8.Areas.areasOut names (E i.1 i.2.1).tree [] (E i.1 i.2.1).data with
    | none => exact absurd ho this
    | some q => exact ⟨_, by simp only [ho, Option.map_some]; rfl⟩)
  have hu : Unpacked names s w l (puts (clear s w) (plainWrites s l ++ c.flatten ++ e.flatten)) :=
    ⟨c.flatten, e.flatten, _, _, by rw [tasks, hc]; rfl, by rw [tasks, he]; rfl, .refl _, .refl _, rfl⟩
  refine ⟨_, hu, ?_⟩
  have hl := laid ok hu
  intro p n
  constructor
  · intro hm hn
    obtain ⟨i, hi, he⟩ := List.mem_map.mp hm
    obtain ⟨p', n', c'⟩ := i
    injection he with e1 e2
    simp only at e1 e2
    subst e1
    subst e2
    rcases kind_cases n' with ⟨k1, k2⟩ | ⟨k1, k2⟩ | ⟨k1, k2⟩
    · have := hl.code _ hi k1
      rw [hn] at this; cases this
    · obtain ⟨_, _, _, hw⟩ := hl.elem _ hi k2
      rw [hn] at hw; cases hw
    · have := hl.plain _ hi k1 k2
      rw [hn] at this; cases this
  · intro hn
    obtain ⟨c', hc'⟩ := hl.only p n hn
    exact List.mem_map.mpr ⟨_, hc', rfl⟩

/-- what is built has every file that is listed -/
theorem pack_has {names : V → List Text} {s : Sys} {w : World V} {fuel : Nat} : ∀ {ls : List (Dir × Text)} {d}, pack names s w fuel ls = some d →
    ∀ f ∈ ls, d f ≠ none
  | g :: r, d, h, f, hf => by
    rw [pack] at h
    cases hp : packOne names s w fuel g with
    | none => rw [hp] at h; cases h
    | some c =>
      rw [hp] at h
      simp only at h
      cases hr : pack names s w fuel r with
      | none => rw [hr] at h; cases h
      | some d' =>
        rw [hr, Option.map_some] at h
        have h := Option.some.inj h
        subst h
        intro hn
        cases hd : d' f with
        | some x => simp only [hd, Option.some_or] at hn; cases hn
        | none =>
          simp only [hd, Option.none_or] at hn
          rcases List.mem_cons.mp hf with rfl | hf
          · rw [if_pos rfl] at hn; cases hn
          · exact pack_has hr f hf hd

theorem puts_some (f : File) : ∀ (l : List (Write V)) (w : World V), (∃ x ∈ l, x.1 = f) ∨ w f ≠ none → puts w l f ≠ none
  | [], w, h => by
    rcases h with ⟨x, hx, _⟩ | h
    · cases hx
    · exact h
  | x :: l, w, h => by
    show puts (put w x) l f ≠ none
    refine puts_some f l _ ?_
    by_cases hf : f = x.1
    · right
      show (if f = x.1 then some x.2 else w f) ≠ none
      rw [if_pos hf]
      exact Option.some_ne_none _
    · rcases h with ⟨y, hy, he⟩ | hw
      · rcases List.mem_cons.mp hy with rfl | hy
        · exact absurd he.symm hf
        · exact .inl ⟨y, hy, he⟩
      · right
        show (if f = x.1 then some x.2 else w f) ≠ none
        rw [if_neg hf]
        exact hw

theorem split_none (d : Char) : ∀ s : Text, d ∉ s → split d s = [s]
  | [], _ => rfl
  | c :: t, h => by
    rw [split, if_neg (fun e : c = d => h (e ▸ List.mem_cons_self)), split_none d t (fun hm => h (List.mem_cons_of_mem _ hm))]

/-- **C66 is false of areas whose name is one word.**  Their file lies next to the module, in the folder of the sources; the build takes it for a file of its
own and puts it into what it builds, where it has never been.  Stated for every folder with a module whose text has such an area. -/
theorem C66_single_name_neg (names : V → List Text) (s : Sys) (hdeep : s.deep = false) (w w' : World V) (l : List (Item V)) (h : Unpacked names s w l w') (p : Dir) (n : Text) (t : Text)
    (hn : isCode n = true) (hi : (p, n, txt s t) ∈ l) (hr : '\r' ∉ t) (hb : t.head? ≠ some bom) (A : V8.Code.Areas) (hA : V8.Code.unpack t = some A) (k : Text) (d : Text)
    (hk : (k, (⟨.incl, d⟩ : V8.Code.Area)) ∈ A) (hroot : k ≠ "root".toList) (hx : s.areas k = none) (hu : '_' ∉ k) (hnew : ∀ c, (p, k ++ ".bsl".toList, c) ∉ l)
    (ls : List (Dir × Text)) (hls : Listing s w' ls) (fuel : Nat) (b : Dir × Text → Option (Content V)) (hp : pack names s w' fuel ls = some b) :
    b (p, k ++ ".bsl".toList) ≠ none ∧ ∀ c, (p, k ++ ".bsl".toList, c) ∉ l := by
  refine ⟨pack_has hp _ ((hls _ _).mpr ?_), hnew⟩
  obtain ⟨code, elem, code', elem', hc, he, pc, pe, rfl⟩ := h
  refine puts_some _ _ _ (.inl ?_)
  obtain ⟨u, hu', hin⟩ := (tasks_mem (codeWrites s) _ _ hc).1 (p, n, txt s t) (List.mem_filter.mpr ⟨hi, hn⟩)
  have hpar : parse s.env k (s.src ++ p) = (s.src ++ p, k ++ ".bsl".toList) := by
    have hname : s.env.name k = k := by
      show (s.areas k).getD k = k
      rw [hx]
      rfl
    have hdesc : s.env.descent = false := hdeep
    unfold parse
    rw [hname, split_none _ _ hu, hdesc]
    rfl
  have hmem : ((s.src ++ p, k ++ ".bsl".toList), txt s d) ∈ u := by
    unfold codeWrites txt at hu'
    simp only at hu'
    have hd : dropBom (osWrite s.win t) = osWrite s.win t := by
      rw [dropBom, if_neg (fun h => hb ((V8.Module.osWrite_head s.win t).mp h))]
    rw [utf8SigText_utf8, hd, Option.bind_some, V8.Module.universal_osWrite s.win _ hr, hA, Option.map_some] at hu'
    replace hu' := Option.some.inj hu'
    rw [← hu']
    refine List.mem_filterMap.mpr ⟨_, hk, ?_⟩
    rw [if_neg hroot, if_neg (fun h => by cases h)]
    rw [hpar]
    rfl
  exact ⟨_, List.mem_append_left _ (List.mem_append_right _ (pc.mem_iff.mpr (hin _ hmem))), rfl⟩

end V8.Org
