import Verif.Props.OrgStar
import Verif.Props.OrgIndexEx
/-
C77: a folder and an index with `*` entries that meet the hypotheses.
-/
namespace V8.OrgIndex.StarEx
open V8.Str V8.Enc V8.Code V8.Brace V8.Json V8.Index V8.OrgIndex
open V8.Org (Sys Content World Item Listing txt)
open V8.Org.Ex (s M E l form ready code_areas elem_areas m2)
open V8.OrgIndex.Ex (ks mem_l keys_cases plain_dec depth)

/-- the index: in `A` the module goes to `common`, the rest to `base/A`; the files in `B` go to `base/B`; the JSON file stays, though there is a `*` beside it -/
def idx : D := .cons "A".toList (.obj (.cons "m.bsl".toList (.str "common/mod.bsl".toList) (.cons ['*'] (.str "base/A".toList) .nil)))
  (.cons "c.json".toList .null (.cons ['*'] (.str "base/top".toList) (.cons "B".toList (.obj (.cons ['*'] (.str "base/B".toList) .nil)) .nil)))

theorem wf : idx.WF := by
  simp only [idx, D.WF, J.WF, and_true]
  decide +kernel

theorem entries_eq : entriesOf idx = [(["A".toList, "m.bsl".toList], "common/mod.bsl".toList), (["A".toList, ['*']], "base/A".toList),
    ([['*']], "base/top".toList), (["B".toList, ['*']], "base/B".toList)] := by decide +kernel

/-- what the index has for a file or `*` in a folder -/
theorem at_two (p : Dir) (n : Text) (h : p = [] ∨ p = ["A".toList] ∨ p = ["B".toList]) : (J.obj idx).at (p ++ [n]) =
    if p = [] then idx.get n else if p = ["A".toList] then (D.cons "m.bsl".toList (.str "common/mod.bsl".toList) (.cons ['*'] (.str "base/A".toList) .nil)).get n
      else (D.cons ['*'] (.str "base/B".toList) .nil).get n := by
  have hn : ∀ o : Option J, (o.bind fun v => v.at []) = o := by
    intro o
    cases o with
    | none => rfl
    | some v => exact at_nil v
  rcases h with rfl | rfl | rfl
  · rw [List.nil_append, at_obj, hn, if_pos rfl]
  · rw [List.singleton_append, at_obj, show idx.get "A".toList = some (.obj _) by rfl, Option.bind_some, at_obj, hn, if_neg (by decide), if_pos rfl]
  · rw [List.singleton_append, at_obj, show idx.get "B".toList = some (.obj _) by rfl, Option.bind_some, at_obj, hn, if_neg (by decide), if_neg (by decide)]

theorem starA : (J.obj idx).at (["A".toList] ++ [['*']]) = some (.str "base/A".toList) := by rw [at_two _ _ (.inr (.inl rfl))]; rfl
theorem starB : (J.obj idx).at (["B".toList] ++ [['*']]) = some (.str "base/B".toList) := by rw [at_two _ _ (.inr (.inr rfl))]; rfl
theorem star0 : (J.obj idx).at ([] ++ [['*']]) = some (.str "base/top".toList) := by rw [at_two _ _ (.inl rfl)]; rfl
theorem a1 : (J.obj idx).at (["A".toList] ++ ["m.bsl".toList]) = some (.str "common/mod.bsl".toList) := by rw [at_two _ _ (.inr (.inl rfl))]; rfl
theorem a2 : (J.obj idx).at (["A".toList] ++ ["f.elem.json".toList]) = none := by rw [at_two _ _ (.inr (.inl rfl))]; rfl
theorem a3 : (J.obj idx).at ([] ++ ["c.json".toList]) = some .null := by rw [at_two _ _ (.inl rfl)]; rfl
theorem a4 : (J.obj idx).at (["B".toList] ++ ["n.bsl".toList]) = none := by rw [at_two _ _ (.inr (.inr rfl))]; rfl

/-- where the files belong -/
def T (x : Dir × Text) : Org.File := if x = (["A".toList], "m.bsl".toList) then (["p".toList, "common".toList], "mod.bsl".toList)
  else if x = (["A".toList], "f.elem.json".toList) then (["p".toList, "base".toList, "A".toList], "f.elem.json".toList)
  else if x = (["B".toList], "n.bsl".toList) then (["p".toList, "base".toList, "B".toList], "n.bsl".toList) else (s.src ++ x.1, x.2)

theorem target_T (x : Dir × Text) (h : x ∈ ks) : starTarget s.src idx x.1 x.2 = T x := by
  simp only [ks, List.mem_cons, List.not_mem_nil, or_false] at h
  rcases h with rfl | rfl | rfl | rfl
  · rw [star_named a1 (by decide)]; decide +kernel
  · rw [star_own a4 starB]; decide +kernel
  · rw [star_own a2 starA]; decide +kernel
  · unfold starTarget
    rw [a3]
    decide +kernel

theorem way (p : Dir) (h : p = [] ∨ p = ["A".toList] ∨ p = ["B".toList]) : ∀ q, q <+: p → (J.obj idx).at q = none ∨ ∃ d, (J.obj idx).at q = some (.obj d) := by
  have h0 : ∃ d, (J.obj idx).at [] = some (.obj d) := ⟨_, at_nil _⟩
  intro q hq
  right
  rcases h with rfl | rfl | rfl
  · rw [List.prefix_nil.mp hq]; exact h0
  · rcases List.prefix_cons_iff.mp hq with rfl | ⟨t, rfl, ht⟩
    · exact h0
    · rw [List.prefix_nil.mp ht]; exact ⟨_, by rw [at_obj, show idx.get "A".toList = some (.obj _) by rfl, Option.bind_some, at_nil]⟩
  · rcases List.prefix_cons_iff.mp hq with rfl | ⟨t, rfl, ht⟩
    · exact h0
    · rw [List.prefix_nil.mp ht]; exact ⟨_, by rw [at_obj, show idx.get "B".toList = some (.obj _) by rfl, Option.bind_some, at_nil]⟩

theorem tidy : TidyStar idx := by
  unfold idx
  rw [TidyStar, TidyStar, TidyStar, TidyStar, TidyStar, TidyStarV, TidyStar, TidyStar, TidyStar, TidyStarV, TidyStarV, TidyStar, TidyStar]
  exact ⟨.inr (.inl ⟨by decide, .inr (.inl ⟨by decide, trivial⟩), .inr (.inr ⟨rfl, _, rfl, by decide⟩), trivial⟩), .inr (.inl ⟨by decide, trivial⟩),
    .inr (.inr ⟨rfl, _, rfl, by decide⟩), .inr (.inl ⟨by decide, .inr (.inr ⟨rfl, _, rfl, by decide⟩), trivial⟩), trivial⟩
  all_goals (intro _ h; cases h)

/-- the `*` entries -/
theorem stars (q : Dir) (f : Text) (hq : areasKey ∉ q) (h : (J.obj idx).at (q ++ [['*']]) = some (.str f)) :
    (q = ["A".toList] ∧ f = "base/A".toList) ∨ (q = [] ∧ f = "base/top".toList) ∨ (q = ["B".toList] ∧ f = "base/B".toList) := by
  obtain ⟨_, hf', hne⟩ := tidy_star idx tidy q _ hq h
  cases hf'
  have hm := (mem_entries idx wf (q ++ [['*']]) f).mpr ⟨by simp, fun hm => by
    rcases List.mem_append.mp hm with hm | hm
    · exact hq hm
    · exact absurd (List.mem_singleton.mp hm) (by decide), hne, h⟩
  rw [entries_eq] at hm
  simp only [List.mem_cons, List.not_mem_nil, or_false, Prod.mk.injEq] at hm
  have key : ∀ (a : List Text) (b : Text), q ++ [['*']] = a ++ [b] → q = a ∧ ['*'] = b := by
    intro a b hab
    obtain ⟨h1, h2⟩ := List.append_inj' hab rfl
    exact ⟨h1, by injection h2⟩
  rcases hm with ⟨hm, _⟩ | ⟨hm, h2⟩ | ⟨hm, h2⟩ | ⟨hm, h2⟩
  · exact absurd (key ["A".toList] "m.bsl".toList hm).2 (by decide)
  · exact .inl ⟨(key ["A".toList] ['*'] hm).1, h2⟩
  · exact .inr (.inl ⟨(key [] ['*'] hm).1, h2⟩)
  · exact .inr (.inr ⟨(key ["B".toList] ['*'] hm).1, h2⟩)

theorem folders_eq : starFolder s.src "base/A".toList = ["p".toList, "base".toList, "A".toList] ∧
    starFolder s.src "base/top".toList = ["p".toList, "base".toList, "top".toList] ∧ starFolder s.src "base/B".toList = ["p".toList, "base".toList, "B".toList] := by
  decide +kernel

theorem starOk : StarOk id s idx l M E := by
  obtain ⟨e, he⟩ := elem_areas
  refine ⟨rfl, wf, tidy, by decide, ?_, ?_, ?_, ?_, ?_, ?_, ?_, ?_, ?_, ?_, ?_, ?_, ?_⟩
  · intro c hc
    have : ∀ c ∈ s.src, ('/' ∉ c && c ≠ [] && c ≠ ".".toList && c ≠ "..".toList) = true := by decide +kernel
    exact plain_dec c (this c hc)
  · intro i hi
    have h := mem_l i hi
    generalize (i.2.1) = n at h ⊢
    have : ∀ x ∈ ks, (∀ c ∈ x.1 ++ [x.2], ('/' ∉ c && c ≠ [] && c ≠ ".".toList && c ≠ "..".toList) = true) ∧ areasKey ∉ x.1 ++ [x.2] := by decide +kernel
    have := this _ h
    exact ⟨fun c hc => plain_dec c (this.1 c hc), this.2⟩
  · intro q k x h1 h2 h3 h4
    have hm := (mem_entries idx wf (q ++ [k]) x).mpr ⟨by simp, h1, h3, h2⟩
    rw [entries_eq] at hm
    simp only [List.mem_cons, List.not_mem_nil, or_false, Prod.mk.injEq] at hm
    have hk : ∀ a : List Text, q ++ [k] ≠ a ++ [['*']] := by
      intro a hab
      obtain ⟨_, h2⟩ := List.append_inj' hab rfl
      injection h2 with h2
      exact h4 h2
    rcases hm with ⟨_, rfl⟩ | ⟨h, _⟩ | ⟨h, _⟩ | ⟨h, _⟩
    · exact ⟨by decide +kernel, plain_dec _ (by decide +kernel)⟩
    · exact absurd h (hk ["A".toList])
    · exact absurd h (hk [])
    · exact absurd h (hk ["B".toList])
  · intro q f h
    by_cases hq : areasKey ∈ q
    · exfalso
      cases q with
      | nil => cases hq
      | cons a b =>
        rw [List.cons_append, at_obj] at h
        by_cases ha : a = "A".toList
        · rw [ha, show idx.get "A".toList = some (.obj (.cons "m.bsl".toList (.str "common/mod.bsl".toList) (.cons ['*'] (.str "base/A".toList) .nil))) by rfl, Option.bind_some] at h
          cases b with
          | nil => exact absurd (List.mem_singleton.mp hq) (by rw [ha]; decide)
          | cons c t =>
            rw [List.cons_append, at_obj, D.get] at h
            by_cases h1 : "m.bsl".toList = c
            · rw [if_pos h1, Option.bind_some] at h
              cases hx : t ++ [['*']] with
              | nil => exact absurd hx (by simp)
              | cons _ _ => rw [hx, at_leaf _ (by rintro _ ⟨⟩)] at h; cases h
            · rw [if_neg h1, D.get] at h
              by_cases h2 : ['*'] = c
              · rw [if_pos h2, Option.bind_some] at h
                cases hx : t ++ [['*']] with
                | nil => exact absurd hx (by simp)
                | cons _ _ => rw [hx, at_leaf _ (by rintro _ ⟨⟩)] at h; cases h
              · rw [if_neg h2] at h; cases h
        · by_cases hb : a = "B".toList
          · rw [hb, show idx.get "B".toList = some (.obj (.cons ['*'] (.str "base/B".toList) .nil)) by rfl, Option.bind_some] at h
            cases b with
            | nil => exact absurd (List.mem_singleton.mp hq) (by rw [hb]; decide)
            | cons c t =>
              rw [List.cons_append, at_obj, D.get] at h
              by_cases h2 : ['*'] = c
              · rw [if_pos h2, Option.bind_some] at h
                cases hx : t ++ [['*']] with
                | nil => exact absurd hx (by simp)
                | cons _ _ => rw [hx, at_leaf _ (by rintro _ ⟨⟩)] at h; cases h
              · rw [if_neg h2] at h; cases h
          · unfold idx at h
            rw [D.get, if_neg (fun e => ha e.symm), D.get] at h
            cases hx : b ++ [['*']] with
            | nil => exact absurd hx (by simp)
            | cons _ _ =>
              rw [hx] at h
              by_cases h1 : "c.json".toList = a
              · rw [if_pos h1, Option.bind_some, at_leaf _ (by rintro _ ⟨⟩)] at h; cases h
              · rw [if_neg h1, D.get] at h
                by_cases h2 : ['*'] = a
                · rw [if_pos h2, Option.bind_some, at_leaf _ (by rintro _ ⟨⟩)] at h; cases h
                · rw [if_neg h2, D.get, if_neg (fun e => hb e.symm)] at h; cases h
    · rcases stars q f hq h with ⟨_, rfl⟩ | ⟨_, rfl⟩ | ⟨_, rfl⟩ <;> (unfold CleanFolder; decide +kernel)
  · intro i hi v hv
    have h := mem_l i hi
    generalize i.1 = p at *
    generalize i.2.1 = n at *
    simp only [ks, List.mem_cons, List.not_mem_nil, or_false, Prod.mk.injEq] at h
    rcases h with ⟨rfl, rfl⟩ | ⟨rfl, rfl⟩ | ⟨rfl, rfl⟩ | ⟨rfl, rfl⟩
    · rw [a1] at hv; exact .inr ⟨_, (Option.some.inj hv).symm⟩
    · rw [a4] at hv; cases hv
    · rw [a2] at hv; cases hv
    · rw [a3] at hv; exact .inl (Option.some.inj hv).symm
  · intro i hi
    exact way _ (keys_cases _ _ (mem_l i hi))
  · intro i hi
    have : ∀ x ∈ ks, ['*'] ∉ x.1 ++ [x.2] := by decide +kernel
    exact this _ (mem_l i hi)
  · intro i hi
    have h := mem_l i hi
    rw [target_T _ h]
    have : ∀ x ∈ ks, T x = (s.src ++ x.1, x.2) ∨ ¬ s.src <+: (T x).1 := by decide +kernel
    exact this _ h
  · intro i hi j hj ht
    have h := mem_l i hi
    have h' := mem_l j hj
    rw [target_T _ h, target_T _ h'] at ht
    have : ∀ x ∈ ks, ∀ y ∈ ks, T x = T y → x.1 = y.1 ∧ x.2 = y.2 := by decide +kernel
    exact this _ h _ h' ht
  · intro i hi a ha
    have h := mem_l i hi
    rw [target_T _ h]
    rw [code_areas] at ha
    have : ∀ x ∈ ks, T x ≠ (["p".toList, "lib".toList], "common.bsl".toList) ∧ T x ≠ (["p".toList, "lib".toList, "util".toList], "str.bsl".toList) := by decide +kernel
    have hx := this _ h
    simp only [List.mem_cons, List.not_mem_nil, or_false] at ha
    rcases ha with rfl | rfl | rfl
    · exact hx.1
    · exact hx.2
    · exact hx.2
  · intro i hi a ha
    have h := mem_l i hi
    rw [target_T _ h]
    rw [he] at ha
    rw [List.mem_singleton.mp ha]
    have : ∀ x ∈ ks, T x ≠ (["p".toList, "lib".toList], "B.elem.json".toList) := by decide +kernel
    exact this _ h
  · intro i hi
    have h := mem_l i hi
    rw [target_T _ h]
    have : ∀ x ∈ ks, Org.isElem x.2 = true → Org.isElem (T x).2 = true := by decide +kernel
    exact this _ h
  · intro q f hq h
    obtain ⟨f1, f2, f3⟩ := folders_eq
    have hF : starFolder s.src f = ["p".toList, "base".toList, "A".toList] ∨ starFolder s.src f = ["p".toList, "base".toList, "top".toList] ∨
        starFolder s.src f = ["p".toList, "base".toList, "B".toList] := by
      rcases stars q f hq h with ⟨_, rfl⟩ | ⟨_, rfl⟩ | ⟨_, rfl⟩
      · exact .inl f1
      · exact .inr (.inl f2)
      · exact .inr (.inr f3)
    generalize starFolder s.src f = F at hF ⊢
    rw [code_areas, he]
    refine ⟨?_, fun a ha => ?_, fun a ha => ?_⟩
    · rcases hF with rfl | rfl | rfl <;> decide +kernel
    · simp only [List.mem_cons, List.not_mem_nil, or_false] at ha
      rcases ha with rfl | rfl | rfl <;> rcases hF with rfl | rfl | rfl <;> (simp only; decide +kernel)
    · rw [List.mem_singleton.mp ha]
      rcases hF with rfl | rfl | rfl <;> (simp only; decide +kernel)

theorem noOther : NoOtherStar idx l := by
  intro q k x h1 h2 h3 h4
  have hm := (mem_entries idx wf (q ++ [k]) x).mpr ⟨by simp, h1, h3, h2⟩
  rw [entries_eq] at hm
  simp only [List.mem_cons, List.not_mem_nil, or_false, Prod.mk.injEq] at hm
  have key : ∀ (a : List Text) (b : Text), q ++ [k] = a ++ [b] → q = a ∧ k = b := by
    intro a b hab
    obtain ⟨h1, h2⟩ := List.append_inj' hab rfl
    exact ⟨h1, by injection h2⟩
  rcases hm with ⟨hm, _⟩ | ⟨hm, _⟩ | ⟨hm, _⟩ | ⟨hm, _⟩
  · obtain ⟨rfl, rfl⟩ := key ["A".toList] "m.bsl".toList hm
    exact ⟨_, List.mem_cons_self⟩
  · exact absurd (key ["A".toList] ['*'] hm).2 h4
  · exact absurd (key [] ['*'] hm).2 h4
  · exact absurd (key ["B".toList] ['*'] hm).2 h4

theorem alone : Alone s idx l := by
  intro q f hq h i hi ht
  have hk := mem_l i hi
  rw [target_T _ hk] at ht
  obtain ⟨f1, f2, f3⟩ := folders_eq
  have hA : ∀ x ∈ ks, (T x).1 = ["p".toList, "base".toList, "A".toList] → x = (["A".toList], "f.elem.json".toList) := by decide +kernel
  have hB : ∀ x ∈ ks, (T x).1 = ["p".toList, "base".toList, "B".toList] → x = (["B".toList], "n.bsl".toList) := by decide +kernel
  have h0 : ∀ x ∈ ks, (T x).1 ≠ ["p".toList, "base".toList, "top".toList] := by decide +kernel
  rcases stars q f hq h with ⟨rfl, rfl⟩ | ⟨rfl, rfl⟩ | ⟨rfl, rfl⟩
  · rw [f1] at ht
    have := hA _ hk ht
    injection this with e1 e2
    rw [e1, e2]
    exact ⟨rfl, a2⟩
  · rw [f2] at ht
    exact absurd ht (h0 _ hk)
  · rw [f3] at ht
    have := hB _ hk ht
    injection this with e1 e2
    rw [e1, e2]
    exact ⟨rfl, a4⟩

/-- the folder is laid out with the index and put together again; the elements have been moved, the JSON file has not -/
example (w : World (List Text)) (hw : Only s idx w l) : ∃ w' cwd ls d, Unpacked id s idx w l w' ∧ Around cwd s idx w' ∧ Listing s w' ls ∧
    Packed id cwd s idx w' ls 5 d ∧ (∀ p n c, d (p, n) = some c ↔ (p, n, c) ∈ l) ∧ w' (s.src, "c.json".toList) = some (.bytes [1, 2, 3]) ∧
    w' (s.src ++ ["A".toList], "f.elem.json".toList) = none ∧ w' (["p".toList, "base".toList, "A".toList], "f.elem.json".toList) ≠ none := by
  obtain ⟨⟨w', h1⟩, h2⟩ := C77_runs id s idx w l M E (ready w) starOk noOther alone hw (by
    intro i _ _
    show V8.Areas.areasOut id form.tree [] form.data ≠ none
    rw [← Option.isSome_iff_ne_none]
    decide +kernel) 5 (fun i _ _ => depth i)
  obtain ⟨⟨ls, hls⟩, h3⟩ := h2 w' h1
  obtain ⟨cwd, hc⟩ := around_ex starOk alone hw (laid_at (ready w) starOk.placed h1)
  obtain ⟨d, hd⟩ := h3 cwd ls hc hls
  obtain ⟨w1, w2, w3⟩ := C77_where id s idx w w' l M E (ready w) starOk h1
  refine ⟨w', cwd, ls, d, h1, hc, hls, hd,
    C77_folder_back id cwd s idx w w' l M E (ready w) starOk noOther alone hw h1 hc ls hls 5 (fun i _ _ => depth i) d hd, ?_, ?_, ?_⟩
  · obtain ⟨c, ho, hw⟩ := w1 ([], "c.json".toList, .bytes [1, 2, 3]) (List.mem_cons_of_mem _ (List.mem_cons_of_mem _ (List.mem_cons_of_mem _ List.mem_cons_self)))
    have ht := target_T ([], "c.json".toList) (by decide)
    rw [show T ([], "c.json".toList) = (s.src, "c.json".toList) by decide +kernel] at ht
    rw [ht] at hw
    rcases ho with ⟨h, _⟩ | ⟨h, _⟩ | ⟨_, _, h⟩
    · exact absurd h (by decide)
    · exact absurd h (by decide)
    · rw [hw, h]
  · refine Classical.byContradiction (fun hn => ?_)
    obtain ⟨c, hc, ht⟩ := w3 ["A".toList] "f.elem.json".toList hn
    rw [target_T (["A".toList], "f.elem.json".toList) (by decide)] at ht
    exact absurd ht (by decide +kernel)
  · obtain ⟨c, ho, hw⟩ := w1 (["A".toList], "f.elem.json".toList, .elems form) (List.mem_cons_of_mem _ (List.mem_cons_of_mem _ List.mem_cons_self))
    have ht := target_T (["A".toList], "f.elem.json".toList) (by decide)
    rw [show T (["A".toList], "f.elem.json".toList) = (["p".toList, "base".toList, "A".toList], "f.elem.json".toList) by decide +kernel] at ht
    rw [ht] at hw
    rw [hw]
    exact Option.some_ne_none _

/-- folders without files meet the hypothesis -/
example : Only s idx (fun _ => (none : Option (Content (List Text)))) l := fun _ _ _ _ _ h => absurd rfl h

/-- a shared folder has a file of the name of the exception: the build takes that file, and not the file of the product -/
example : ∃ (w w' : World (List Text)), Unpacked id s idx w l w' ∧ ([], "c.json".toList, Content.bytes [1, 2, 3]) ∈ l ∧
    ∀ cwd ls fuel d, Around cwd s idx w' → Packed id cwd s idx w' ls fuel d → d ([], "c.json".toList) = some (.bytes [9]) := by
  let w : World (List Text) := fun f => if f = (starFolder s.src "base/top".toList, "c.json".toList) then some (.bytes [9]) else none
  obtain ⟨w', h⟩ := unpack_at (ready w) starOk.placed (by
    intro i _ _
    show V8.Areas.areasOut id form.tree [] form.data ≠ none
    rw [← Option.isSome_iff_ne_none]
    decide +kernel)
  have hi : ([], "c.json".toList, Content.bytes [1, 2, 3]) ∈ l := List.mem_cons_of_mem _ (List.mem_cons_of_mem _ (List.mem_cons_of_mem _ List.mem_cons_self))
  exact ⟨w, w', h, hi, fun cwd ls fuel d hc hd => (C77_exception_neg id cwd s idx w w' l M E (ready w) starOk alone h hc _ hi "base/top".toList a3 star0
    ⟨by decide, by decide⟩ (.bytes [9]) (if_pos rfl) ls fuel d hd).2⟩

/-- run elsewhere, the build leaves the elements out -/
example (w w' : World (List Text)) (h : Unpacked id s idx w l w') (ls : List (Dir × Text)) (hls : Listing s w' ls) (fuel : Nat) (d : Dir × Text → Option (Content (List Text)))
    (hd : Packed id (fun _ => none) s idx w' ls fuel d) : d (["A".toList], "f.elem.json".toList) = none :=
  C77_elsewhere_neg id _ s idx w w' l M E (ready w) starOk h (["A".toList], "f.elem.json".toList, .elems form)
    (List.mem_cons_of_mem _ (List.mem_cons_of_mem _ List.mem_cons_self)) _ a2 starA rfl ls hls fuel d hd

end V8.OrgIndex.StarEx
