import Verif.Props.OrgIndex
import Verif.Props.OrgEx
/-
C74: a folder and an index that meet the hypotheses.
-/
namespace V8.OrgIndex.Ex
open V8.Str V8.Enc V8.Code V8.Brace V8.Json V8.Index V8.OrgIndex
open V8.Org (Sys Content World Item Listing txt)
open V8.Org.Ex (s M E l form ready code_areas elem_areas m2)

/-- the index: the module and the elements in `A` and the JSON file go to `common`, the module in `B` stays -/
def idx : D := .cons "A".toList (.obj (.cons "m.bsl".toList (.str "common/mod.bsl".toList)
    (.cons "f.elem.json".toList (.str "common/forms/form.elem.json".toList) .nil)))
  (.cons "c.json".toList (.str "common/c.json".toList) (.cons "B".toList (.obj (.cons "n.bsl".toList (.str []) .nil)) .nil))

/-- the index has no table of areas -/
theorem sys_eq : sysOf ["p".toList, "src".toList] idx false = s := by
  have : table idx = fun _ => none := by
    funext k
    unfold table
    rw [show idx.get areasKey = none by rw [D.get_none]; decide +kernel]
  unfold sysOf s
  rw [this]

theorem wf : idx.WF := by
  simp only [idx, D.WF, J.WF, and_true]
  decide +kernel

theorem entries_eq : entriesOf idx = [(["A".toList, "m.bsl".toList], "common/mod.bsl".toList), (["A".toList, "f.elem.json".toList], "common/forms/form.elem.json".toList),
    (["c.json".toList], "common/c.json".toList)] := by decide +kernel

theorem at_entry (q : List Text) (e : Text) (h : (q, e) ∈ entriesOf idx) : (J.obj idx).at q = some (.str e) := ((mem_entries idx wf q e).mp h).2.2.2

theorem t1 : target s.src idx ["A".toList] "m.bsl".toList = (["p".toList, "common".toList], "mod.bsl".toList) := by
  rw [target_named (at_entry _ "common/mod.bsl".toList (by rw [entries_eq]; decide)) (by decide)]
  decide +kernel
theorem t2 : target s.src idx ["A".toList] "f.elem.json".toList = (["p".toList, "common".toList, "forms".toList], "form.elem.json".toList) := by
  rw [target_named (at_entry _ "common/forms/form.elem.json".toList (by rw [entries_eq]; decide)) (by decide)]
  decide +kernel
theorem t3 : target s.src idx [] "c.json".toList = (["p".toList, "common".toList], "c.json".toList) := by
  rw [target_named (at_entry _ "common/c.json".toList (by rw [entries_eq]; decide)) (by decide)]
  decide +kernel
theorem atB : (J.obj idx).at (["B".toList] ++ ["n.bsl".toList]) = some (.str []) := by
  rw [List.singleton_append, at_obj, show idx.get "B".toList = some (.obj (.cons "n.bsl".toList (.str []) .nil)) by rfl, Option.bind_some, at_obj]
  rw [show (D.cons "n.bsl".toList (.str []) .nil).get "n.bsl".toList = some (.str []) by rfl, Option.bind_some, at_nil]
theorem t4 : target s.src idx ["B".toList] "n.bsl".toList = (s.src ++ ["B".toList], "n.bsl".toList) := by
  unfold target
  rw [atB]
  simp only [if_true]

/-- the paths of the folder -/
def ks : List (Dir × Text) := [(["A".toList], "m.bsl".toList), (["B".toList], "n.bsl".toList), (["A".toList], "f.elem.json".toList), ([], "c.json".toList)]

theorem mem_l (i : Item (List Text)) (h : i ∈ l) : (i.1, i.2.1) ∈ ks := by
  have : l.map (fun i => (i.1, i.2.1)) = ks := rfl
  rw [← this]
  exact List.mem_map.mpr ⟨i, h, rfl⟩

/-- where the files belong -/
def T (x : Dir × Text) : Org.File := if x = (["A".toList], "m.bsl".toList) then (["p".toList, "common".toList], "mod.bsl".toList)
  else if x = (["A".toList], "f.elem.json".toList) then (["p".toList, "common".toList, "forms".toList], "form.elem.json".toList)
  else if x = ([], "c.json".toList) then (["p".toList, "common".toList], "c.json".toList) else (s.src ++ x.1, x.2)

theorem target_T (x : Dir × Text) (h : x ∈ ks) : target s.src idx x.1 x.2 = T x := by
  simp only [ks, List.mem_cons, List.not_mem_nil, or_false] at h
  rcases h with rfl | rfl | rfl | rfl
  · rw [t1]; decide +kernel
  · rw [t4]; decide +kernel
  · rw [t2]; decide +kernel
  · rw [t3]; decide +kernel

theorem way (p : Dir) (h : p = [] ∨ p = ["A".toList] ∨ p = ["B".toList]) : ∀ q, q <+: p → (J.obj idx).at q = none ∨ ∃ d, (J.obj idx).at q = some (.obj d) := by
  have h0 : ∃ d, (J.obj idx).at [] = some (.obj d) := ⟨_, at_nil _⟩
  intro q hq
  right
  rcases h with rfl | rfl | rfl
  · rw [List.prefix_nil.mp hq]; exact h0
  · rcases List.prefix_cons_iff.mp hq with rfl | ⟨t, rfl, ht⟩
    · exact h0
    · rw [List.prefix_nil.mp ht]; exact ⟨_, by rw [at_obj, show idx.get "A".toList = some (.obj _) by rfl, Option.bind_some, at_nil]⟩
  · rcases List.prefix_cons_iff.mp hq with rfl | ⟨t, rfl, ht⟩
    · exact h0
    · rw [List.prefix_nil.mp ht]; exact ⟨_, by rw [at_obj, show idx.get "B".toList = some (.obj _) by rfl, Option.bind_some, at_nil]⟩

theorem keys_cases (p : Dir) (n : Text) (h : (p, n) ∈ ks) : p = [] ∨ p = ["A".toList] ∨ p = ["B".toList] := by
  simp only [ks, List.mem_cons, List.not_mem_nil, or_false, Prod.mk.injEq] at h
  rcases h with ⟨rfl, _⟩ | ⟨rfl, _⟩ | ⟨rfl, _⟩ | ⟨rfl, _⟩
  · exact .inr (.inl rfl)
  · exact .inr (.inr rfl)
  · exact .inr (.inl rfl)
  · exact .inl rfl

theorem atf (p : Dir) (n : Text) (h : (p, n) ∈ ks) : ∃ e, (J.obj idx).at (p ++ [n]) = some (.str e) := by
  simp only [ks, List.mem_cons, List.not_mem_nil, or_false, Prod.mk.injEq] at h
  rcases h with ⟨rfl, rfl⟩ | ⟨rfl, rfl⟩ | ⟨rfl, rfl⟩ | ⟨rfl, rfl⟩
  · exact ⟨_, at_entry _ "common/mod.bsl".toList (by rw [entries_eq]; decide)⟩
  · exact ⟨_, atB⟩
  · exact ⟨_, at_entry _ "common/forms/form.elem.json".toList (by rw [entries_eq]; decide)⟩
  · exact ⟨_, at_entry _ "common/c.json".toList (by rw [entries_eq]; decide)⟩

theorem plain_dec (c : Text) (h : ('/' ∉ c && c ≠ [] && c ≠ ".".toList && c ≠ "..".toList) = true) : V8.Path.Plain c := by
  simp only [Bool.and_eq_true, decide_eq_true_eq] at h
  exact ⟨h.1.1.1, h.1.1.2, h.1.2, h.2⟩

theorem indexOk : IndexOk id s idx l M E := by
  obtain ⟨e, he⟩ := elem_areas
  refine ⟨rfl, wf, ?_, by decide, ?_, ?_, ?_, ?_, ?_, ?_, ?_, ?_, ?_, ?_, ?_⟩
  · simp only [idx, Tidy, TidyV, and_true]
    decide +kernel
  · intro c hc
    have : ∀ c ∈ s.src, ('/' ∉ c && c ≠ [] && c ≠ ".".toList && c ≠ "..".toList) = true := by decide +kernel
    exact plain_dec c (this c hc)
  · intro i hi
    have h := mem_l i hi
    generalize (i.2.1) = n at h ⊢
    have : ∀ x ∈ ks, (∀ c ∈ x.1, ('/' ∉ c && c ≠ [] && c ≠ ".".toList && c ≠ "..".toList) = true) ∧ areasKey ∉ x.1 ++ [x.2] := by decide +kernel
    have := this _ h
    exact ⟨fun c hc => plain_dec c (this.1 c hc), this.2⟩
  · intro q k x h1 h2 h3
    have hm := (mem_entries idx wf (q ++ [k]) x).mpr ⟨by simp, h1, h3, h2⟩
    rw [entries_eq] at hm
    simp only [List.mem_cons, List.not_mem_nil, or_false, Prod.mk.injEq] at hm
    rcases hm with ⟨_, rfl⟩ | ⟨_, rfl⟩ | ⟨_, rfl⟩
    · exact ⟨by decide +kernel, plain_dec _ (by decide +kernel)⟩
    · exact ⟨by decide +kernel, plain_dec _ (by decide +kernel)⟩
    · exact ⟨by decide +kernel, plain_dec _ (by decide +kernel)⟩
  · intro i hi v hv
    obtain ⟨x, hx⟩ := atf _ _ (mem_l i hi)
    rw [hv] at hx
    exact .inr ⟨x, Option.some.inj hx⟩
  · intro i hi
    exact way _ (keys_cases _ _ (mem_l i hi))
  · intro i hi
    rcases keys_cases _ _ (mem_l i hi) with h | h | h
    · rw [h, List.nil_append, at_obj, show idx.get ['*'] = none by rfl]; rfl
    · rw [h, List.singleton_append, at_obj, show idx.get "A".toList = some (.obj _) by rfl, Option.bind_some, at_obj]; rfl
    · rw [h, List.singleton_append, at_obj, show idx.get "B".toList = some (.obj _) by rfl, Option.bind_some, at_obj]; rfl
  · intro i hi
    have h := mem_l i hi
    rw [target_T _ h]
    have : ∀ x ∈ ks, T x = (s.src ++ x.1, x.2) ∨ ¬ s.src <+: (T x).1 := by decide +kernel
    exact this _ h
  · intro i hi j hj ht
    have h := mem_l i hi
    have h' := mem_l j hj
    rw [target_T _ h, target_T _ h'] at ht
    have : ∀ x ∈ ks, ∀ y ∈ ks, T x = T y → x.1 = y.1 ∧ x.2 = y.2 := by decide +kernel
    exact this _ h _ h' ht
  · intro i hi a ha
    have h := mem_l i hi
    rw [target_T _ h]
    rw [code_areas] at ha
    have : ∀ x ∈ ks, T x ≠ (["p".toList, "lib".toList], "common.bsl".toList) ∧ T x ≠ (["p".toList, "lib".toList, "util".toList], "str.bsl".toList) := by decide +kernel
    have hx := this _ h
    simp only [List.mem_cons, List.not_mem_nil, or_false] at ha
    rcases ha with rfl | rfl | rfl
    · exact hx.1
    · exact hx.2
    · exact hx.2
  · intro i hi a ha
    have h := mem_l i hi
    rw [target_T _ h]
    rw [he] at ha
    rw [List.mem_singleton.mp ha]
    have : ∀ x ∈ ks, T x ≠ (["p".toList, "lib".toList], "B.elem.json".toList) := by decide +kernel
    exact this _ h
  · intro i hi
    have h := mem_l i hi
    rw [target_T _ h]
    have : ∀ x ∈ ks, Org.isElem x.2 = true → Org.isElem (T x).2 = true := by decide +kernel
    exact this _ h

theorem noOther : NoOther idx l := by
  intro q k x h1 h2 h3
  have hm := (mem_entries idx wf (q ++ [k]) x).mpr ⟨by simp, h1, h3, h2⟩
  rw [entries_eq] at hm
  simp only [List.mem_cons, List.not_mem_nil, or_false, Prod.mk.injEq] at hm
  have key : ∀ (a : List Text) (b : Text), q ++ [k] = a ++ [b] → q = a ∧ k = b := by
    intro a b hab
    obtain ⟨h1, h2⟩ := List.append_inj' hab rfl
    exact ⟨h1, by injection h2⟩
  rcases hm with ⟨hm, _⟩ | ⟨hm, _⟩ | ⟨hm, _⟩
  · obtain ⟨rfl, rfl⟩ := key ["A".toList] "m.bsl".toList hm
    exact ⟨_, List.mem_cons_self⟩
  · obtain ⟨rfl, rfl⟩ := key ["A".toList] "f.elem.json".toList hm
    exact ⟨_, List.mem_cons_of_mem _ (List.mem_cons_of_mem _ List.mem_cons_self)⟩
  · obtain ⟨rfl, rfl⟩ := key [] "c.json".toList hm
    exact ⟨_, List.mem_cons_of_mem _ (List.mem_cons_of_mem _ (List.mem_cons_of_mem _ List.mem_cons_self))⟩

theorem depth (i : Item (List Text)) : nodesDepth (M i.1 i.2.1) < 5 := by
  unfold M
  by_cases h : i.2.1 = "m.bsl".toList
  · rw [if_pos h]; decide
  · rw [if_neg h]; decide

/-- the folder is laid out with the index and put together again, and the JSON file has been moved -/
example (w : World (List Text)) (cwd : Text → Option (List (Text × Bool))) : ∃ w' ls d, Unpacked id s idx w l w' ∧ Listing s w' ls ∧
    Packed id cwd s idx w' ls 5 d ∧ (∀ p n c, d (p, n) = some c ↔ (p, n, c) ∈ l) ∧ w' (["p".toList, "common".toList], "c.json".toList) = some (.bytes [1, 2, 3]) ∧
    w' (s.src, "c.json".toList) = none := by
  obtain ⟨⟨w', h1⟩, h2⟩ := C74_runs id cwd s idx w l M E (ready w) indexOk noOther (by
    intro i _ _
    show V8.Areas.areasOut id form.tree [] form.data ≠ none
    rw [← Option.isSome_iff_ne_none]
    decide +kernel) 5 (fun i _ _ => depth i)
  obtain ⟨⟨ls, hls⟩, h3⟩ := h2 w' h1
  obtain ⟨d, hd⟩ := h3 ls hls
  refine ⟨w', ls, d, h1, hls, hd, C74_folder_back id cwd s idx w w' l M E (ready w) indexOk noOther h1 ls hls 5 (fun i _ _ => depth i) d hd, ?_, ?_⟩
  · obtain ⟨c, ho, hw⟩ := C74_where id s idx w w' l M E (ready w) indexOk h1 ([], "c.json".toList, .bytes [1, 2, 3]) (List.mem_cons_of_mem _ (List.mem_cons_of_mem _ (List.mem_cons_of_mem _ List.mem_cons_self)))
    rw [t3] at hw
    rcases ho with ⟨h, _⟩ | ⟨h, _⟩ | ⟨_, _, h⟩
    · exact absurd h (by decide)
    · exact absurd h (by decide)
    · rw [hw, h]
  · refine Classical.byContradiction (fun hn => ?_)
    obtain ⟨c, hc, ht⟩ := (laid (ready w) indexOk h1).only [] "c.json".toList (by rw [List.append_nil]; exact hn)
    rw [t3] at ht
    exact absurd ht (by decide)

end V8.OrgIndex.Ex
