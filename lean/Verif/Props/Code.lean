import Verif.CodeLemmas
/-
Property theorems C15-C17 (splitting module code into include areas) about the model Verif/Code.lean; vocabulary in
Verif/CodeSpec.lean.
-/
namespace V8.Code
open V8.Str

/-! ## C15 -/

/-- **C15, partial.**  Splitting a well-formed module and inlining its areas again gives the module text back: for every module
(any nesting, any texts), any file system before, any index of area names, with and without versions.
Missing: names that are not found again (`NameOK`, `files` in GoodModule), see the two theorems below. -/
theorem C15_round_trip_partial (e : Env) (modDir : Dir) (rootFile : Dir × Text) (fs : FS) (m : List Node)
    (h : GoodModule e modDir rootFile fs m) :
    ∃ fs', unpackFile e modDir rootFile fs (text m) = some fs' ∧
      ∃ n0, ∀ n, n0 ≤ n → packFile e fs' n rootFile none = some (text m) := by
  have hu := unpack_module _ m h.wf h.proper h.names
  have hg := good_of_proper h.proper
  have hroot := (List.nodup_cons.mp h.names).1
  have hfiles := List.nodup_cons.mp h.files
  refine ⟨_, by unfold unpackFile; rw [hu]; rfl, nodesDepth m + 1, ?_⟩
  intro n hn
  obtain ⟨n', rfl⟩ : ∃ n', n = n' + 1 := ⟨n - 1, by omega⟩
  rw [writeAreas_cons]
  simp only [if_true]
  have hr : writeAreas e modDir rootFile (fs.write rootFile (nodesOwn m).flatten) (entries m) rootFile = some (nodesOwn m).flatten := by
    unfold entries
    rw [writeAreas_keep e modDir rootFile _ hroot _ hfiles.1]
    simp [FS.write]
  rw [packFile, hr]
  simp only
  rw [own_proper m hg]
  apply pack_nodes e modDir rootFile _ m false none h.wf rootFile.1 (fun _ => rfl) hg _ n' (by omega)
  intro p hp
  cases ht : p.2.1 with
  | incl => exact writeAreas_get e modDir rootFile _ hroot hfiles.2 p hp ht _
  | incr =>
    obtain ⟨h1, h2⟩ := h.readonly p hp ht
    simp only [List.mem_cons, not_or] at h2
    unfold entries
    rw [writeAreas_keep e modDir rootFile _ hroot _ h2.2, write_other _ _ _ _ h2.1, h1]

/-- parameters used in the examples: sources in /p/src, no index -/
def exEnv : Env := ⟨["p".toList, "src".toList], fun _ => none, false⟩

/-- a module with a region, an area, an area inside it and a dynamic directive -/
def exModule : List Node :=
  [.line "Перем А;\n".toList,
   .region "#Область Служебные\n".toList
     [.area "#Область include_lib_common //&НаСервере\n".toList
       [.line "&НаСервере //DynamicDirective\n".toList,
        .area "  #Область include_lib_util_str\n".toList [.line "Возврат;\n".toList] "  #КонецОбласти\n".toList]
       "#КонецОбласти // include\n".toList]
     "#КонецОбласти\n".toList,
   .line "// конец".toList]

theorem not_infix {a b : Text} (h : ∀ i ∈ List.range (b.length + 1), starts a (b.drop i) = false) : ¬ a <:+: b := by
  rintro ⟨s, t, hst⟩
  have hi := h s.length (by
    have := congrArg List.length hst
    simp at this
    simp; omega)
  have : starts a (b.drop s.length) = true := by
    rw [starts_iff, ← hst]
    simp
  rw [this] at hi
  cases hi

example : GoodModule exEnv (exEnv.src ++ ["M".toList]) (exEnv.src ++ ["M".toList], "ObjectModule.bsl".toList) (fun _ => none) exModule := by
  have k1 : kind "#Область include_lib_common //&НаСервере\n".toList = .area .incl "lib_common".toList (some "&НаСервере".toList) := by
    decide +kernel
  have k2 : kind "  #Область include_lib_util_str\n".toList = .area .incl "lib_util_str".toList none := by decide +kernel
  have hareas : nodesAreas exModule = [("lib_common".toList, .incl, nodesOwn
       [.line "&НаСервере //DynamicDirective\n".toList,
        .area "  #Область include_lib_util_str\n".toList [.line "Возврат;\n".toList] "  #КонецОбласти\n".toList]),
      ("lib_util_str".toList, .incl, nodesOwn [.line "Возврат;\n".toList])] := by
    simp only [exModule, nodesAreas, Node.areas, k1, k2, List.nil_append, List.append_nil]
  constructor
  · simp only [exModule, WFs, WF, and_true]
    refine ⟨⟨by decide +kernel, .inl (not_infix (by decide +kernel))⟩,
      ⟨by decide +kernel, by decide +kernel, not_infix (by decide +kernel), not_infix (by decide +kernel),
        by decide +kernel, not_infix (by decide +kernel), not_infix (by decide +kernel), _, _, _, k1, by decide, .inl (.inr (by decide +kernel)),
        ⟨by decide +kernel, .inr ⟨"&НаСервере".toList, "\n".toList, rfl, by decide +kernel, by decide, not_infix (by decide +kernel)⟩⟩,
        by decide +kernel, not_infix (by decide +kernel), not_infix (by decide +kernel), _, _, _, k2, by decide, .inl (.inr (by decide +kernel)),
        by decide +kernel, .inl (not_infix (by decide +kernel))⟩,
      by decide +kernel, .inl (not_infix (by decide +kernel))⟩
  · unfold ProperLines; decide +kernel
  · rw [hareas]; decide
  · unfold written; rw [hareas]; decide +kernel
  · rw [hareas]
    intro p hp
    simp only [List.mem_cons, List.not_mem_nil, or_false] at hp
    rcases hp with rfl | rfl <;> intro h <;> cases h

/-- no blank at either end -/
def Trimmed (x : Text) : Prop := x ≠ [] ∧ (∀ c ∈ x.head?, isSpace c = false) ∧ (∀ c ∈ x.getLast?, isSpace c = false)

theorem dropWhile_all_append (w x : Text) (hw : ∀ c ∈ w, isSpace c = true) (hx : ∀ c ∈ x.head?, isSpace c = false) :
    (w ++ x).dropWhile isSpace = x := by
  induction w with
  | nil =>
    cases x with
    | nil => rfl
    | cons c x => rw [List.nil_append, List.dropWhile_cons, hx c (by simp)]; simp
  | cons a w ih =>
    rw [List.cons_append, List.dropWhile_cons, if_pos (hw a (by simp))]
    exact ih (fun c hc => hw c (by simp [hc]))

theorem strip_blanks (w1 x w2 : Text) (h1 : ∀ c ∈ w1, isSpace c = true) (h2 : ∀ c ∈ w2, isSpace c = true) (hx : Trimmed x) :
    strip (w1 ++ x ++ w2) = x := by
  obtain ⟨hne, hh, hl⟩ := hx
  unfold strip lstrip rstrip
  rw [List.append_assoc, dropWhile_all_append w1 (x ++ w2) h1 (by
    cases x with
    | nil => exact absurd rfl hne
    | cons c x => simpa using hh), List.reverse_append,
    dropWhile_all_append w2.reverse x.reverse (fun c hc => h2 c (by simpa using hc)) (by
      rw [List.head?_reverse]; exact hl), List.reverse_reverse]

theorem breakOn_none (sep x : Text) (h : ¬ sep <:+: x) : breakOn sep x = (x, none) := by
  induction x with
  | nil => rfl
  | cons c t ih =>
    rw [breakOn, if_neg]
    · rw [ih (fun hi => h (hi.trans (List.suffix_cons c t).isInfix))]
    · rw [starts_iff]
      exact fun hp => h hp.isInfix

/-- **C15: which line opens which area.**  A line opens the include area of a name exactly as written between the blanks, with any
blanks around the directive and around the name. -/
theorem C15_area_line (w1 w2 name w3 : Text) (h1 : ∀ c ∈ w1, isSpace c = true) (h2 : ∀ c ∈ w2, isSpace c = true)
    (h3 : ∀ c ∈ w3, isSpace c = true) (hn : Trimmed name) (hs : ¬ " //".toList <:+: name) :
    kind (w1 ++ "#Область include_".toList ++ w2 ++ name ++ w3) = .area .incl name none ∧
    kind (w1 ++ "#Область includr_".toList ++ w2 ++ name ++ w3) = .area .incr name none := by
  have key : ∀ pre : Text, pre.length = 17 → pre.head? = some '#' →
      strip (w1 ++ pre ++ w2 ++ name ++ w3) = pre ++ w2 ++ name ∧ areaName (pre ++ w2 ++ name) = (name, none) := by
    intro pre hp hh
    have hpne : pre ≠ [] := by intro h; rw [h] at hp; cases hp
    refine ⟨?_, ?_⟩
    · rw [show w1 ++ pre ++ w2 ++ name ++ w3 = w1 ++ (pre ++ w2 ++ name) ++ w3 by simp]
      apply strip_blanks _ _ _ h1 h3
      refine ⟨by simp [hpne], ?_, ?_⟩
      · intro c hc
        cases pre with
        | nil => exact absurd rfl hpne
        | cons p pre =>
          simp only [List.head?_cons, Option.some.injEq] at hh
          simp only [List.cons_append, List.head?_cons, Option.mem_def, Option.some.injEq] at hc
          rw [← hc, hh]; decide
      · intro c hc
        refine hn.2.2 c ?_
        rw [List.getLast?_append] at hc
        cases hl : name.getLast? with
        | none => exact absurd (List.getLast?_eq_none_iff.mp hl) hn.1
        | some d => rw [hl] at hc; exact hc
    · unfold areaName
      have : (pre ++ w2 ++ name).drop 17 = w2 ++ name := by
        rw [List.append_assoc, ← hp, List.drop_left]
      rw [this, show w2 ++ name = w2 ++ name ++ [] by simp, strip_blanks w2 name [] h2 (by simp) hn,
        breakOn_none _ _ hs]
      rfl
  have fin : ∀ (pre : Text) (typ : AreaType), pre.length = 17 → pre.head? = some '#' → "#Область".toList <+: pre →
      isArea (pre ++ w2 ++ name) = some typ → kind (w1 ++ pre ++ w2 ++ name ++ w3) = .area typ name none := by
    intro pre typ hl hh hp ha
    obtain ⟨k1, k2⟩ := key pre hl hh
    unfold kind
    rw [k1]
    have e1 : (pre ++ w2 ++ name).head? = some '#' := by
      cases pre with
      | nil => cases hl
      | cons p pre => simpa using hh
    have e2 : starts "#Область".toList (pre ++ w2 ++ name) = true := by
      rw [starts_iff, List.append_assoc]
      exact hp.trans (List.prefix_append _ _)
    simp only [e1, if_true, e2, ha, k2]
  have hpre : ∀ pre : Text, pre.length = 17 → (pre ++ w2 ++ name).take 17 = pre := by
    intro pre hl
    rw [List.append_assoc, ← hl, List.take_left]
  constructor
  · refine fin _ .incl (by decide) (by decide) (by decide) ?_
    unfold isArea
    rw [hpre _ (by decide), if_pos rfl]
  · refine fin _ .incr (by decide) (by decide) (by decide) ?_
    unfold isArea
    rw [hpre _ (by decide), if_neg (by decide), if_pos rfl]

example : kind "\t#Область include_ lib_common  \n".toList = .area .incl "lib_common".toList none ∧
    Trimmed "lib_common".toList := by
  refine ⟨by decide +kernel, by decide +kernel, ?_, ?_⟩ <;> decide +kernel

/-- **C15 is false of the code for single-name areas inside areas of another folder** (they are written next to the
module but looked for next to the enclosing area): building such a module fails. -/
theorem C15_nested_single_name_fails :
    let t := "#Область include_lib_a\n#Область include_b\nx\n#КонецОбласти\n#КонецОбласти\n".toList
    let f := (exEnv.src ++ ["M".toList], "ObjectModule.bsl".toList)
    ((unpackFile exEnv f.1 f (fun _ => none) t).map (fun fs => packFile exEnv fs 10 f none)) = some none := by
  decide +kernel

/-- **C15 is false of the code for two names of one file**: the text of the first area is replaced by the second's. -/
theorem C15_same_file_mixed :
    let t := "#Область include_a__lib_b\nx\n#КонецОбласти\n#Область include_lib_b\ny\n#КонецОбласти\n".toList
    let t' := "#Область include_a__lib_b\ny\n#КонецОбласти\n#Область include_lib_b\ny\n#КонецОбласти\n".toList
    let f := (exEnv.src ++ ["M".toList], "ObjectModule.bsl".toList)
    ((unpackFile exEnv f.1 f (fun _ => none) t).map (fun fs => packFile exEnv fs 10 f none)) = some (some t') := by
  decide +kernel

/-! ## C16 -/

/-- the name of the area a line opens -/
def opensArea (l : Text) : Option Text := match kind l with
  | .area _ key _ => some key
  | _ => none

/-- areas with their contents as lists of lines -/
abbrev LineAreas := List (Text × AreaType × List Text)

def LineAreas.toAreas (G : LineAreas) : Areas := G.map (fun p => (p.1, ⟨p.2.1, p.2.2.flatten⟩))

def LineAreas.add (G : LineAreas) (k l : Text) : LineAreas := G.map (fun p => if p.1 = k then (p.1, p.2.1, p.2.2 ++ [l]) else p)

theorem toAreas_add (G : LineAreas) (k l : Text) : (G.add k l).toAreas = addTo G.toAreas k l := by
  unfold LineAreas.add LineAreas.toAreas addTo
  rw [List.map_map, List.map_map]
  apply List.map_congr_left
  intro p _
  simp only [Function.comp]
  split <;> simp

theorem add_keys (G : LineAreas) (k l : Text) : (G.add k l).map (·.1) = G.map (·.1) := by
  unfold LineAreas.add
  rw [List.map_map]
  apply List.map_congr_left
  intro p _
  simp only [Function.comp]
  split <;> simp_all

theorem add_absent (G : LineAreas) (k l : Text) (h : k ∉ G.map (·.1)) : G.add k l = G := by
  unfold LineAreas.add
  conv => rhs; rw [← List.map_id G]
  apply List.map_congr_left
  intro p hp
  rw [if_neg]
  · rfl
  · rintro rfl; exact h (List.mem_map_of_mem hp)

theorem add_perm (G : LineAreas) (k l : Text) (hk : k ∈ G.map (·.1)) (hnd : (G.map (·.1)).Nodup) :
    ((G.add k l).flatMap (·.2.2)).Perm (G.flatMap (·.2.2) ++ [l]) := by
  induction G with
  | nil => simp at hk
  | cons p G ih =>
    rw [List.map_cons, List.nodup_cons] at hnd
    by_cases h : p.1 = k
    · have : LineAreas.add (p :: G) k l = (p.1, p.2.1, p.2.2 ++ [l]) :: G := by
        have e : LineAreas.add (p :: G) k l = (if p.1 = k then (p.1, p.2.1, p.2.2 ++ [l]) else p) :: LineAreas.add G k l := rfl
        rw [e, if_pos h, add_absent G k l (h ▸ hnd.1)]
      rw [this]
      simp only [List.flatMap_cons, List.append_assoc]
      exact List.Perm.append_left _ List.perm_append_comm
    · have : LineAreas.add (p :: G) k l = p :: LineAreas.add G k l := by
        have e : LineAreas.add (p :: G) k l = (if p.1 = k then (p.1, p.2.1, p.2.2 ++ [l]) else p) :: LineAreas.add G k l := rfl
        rw [e, if_neg h]
      rw [this]
      simp only [List.flatMap_cons, List.append_assoc]
      apply List.Perm.append_left
      apply ih _ hnd.2
      simp only [List.map_cons, List.mem_cons] at hk
      rcases hk with hk | hk
      · exact absurd hk.symm h
      · exact hk

theorem add_sublist (G : LineAreas) (k l : Text) (ls : List Text) (h : ∀ p ∈ G, p.2.2.Sublist ls) :
    ∀ p ∈ G.add k l, p.2.2.Sublist (ls ++ [l]) := by
  intro p hp
  obtain ⟨q, hq, rfl⟩ := List.mem_map.mp hp
  split
  · exact (h q hq).append (List.Sublist.refl _)
  · exact (h q hq).trans (List.sublist_append_left _ _)

theorem uSteps_parts (ls : List Text) : ∀ (s s' : UState) (done : List Text) (G : LineAreas), s.areas = G.toAreas →
    (G.map (·.1) ++ ls.filterMap opensArea).Nodup → (∀ k ∈ s.incl, k ∈ G.map (·.1)) →
    (G.flatMap (·.2.2)).Perm (done.map dynStrip) → (∀ p ∈ G, p.2.2.Sublist (done.map dynStrip)) →
    uSteps s ls = some s' →
    ∃ G' : LineAreas, s'.areas = G'.toAreas ∧ (G'.flatMap (·.2.2)).Perm ((done ++ ls).map dynStrip) ∧
      (∀ p ∈ G', p.2.2.Sublist ((done ++ ls).map dynStrip)) ∧ (G'.map (·.1)) = G.map (·.1) ++ ls.filterMap opensArea := by
  induction ls with
  | nil =>
    intro s s' done G h1 h2 h3 h4 h5 h6
    injection h6 with h6; subst h6
    exact ⟨G, h1, by simpa using h4, by simpa using h5, by simp⟩
  | cons l ls ih =>
    intro s s' done G h1 h2 h3 h4 h5 h6
    rw [uSteps] at h6
    have plain : ∀ k ∈ G.map (·.1), opensArea l = none → ∀ s1 : UState, s1.areas = addTo s.areas k (dynStrip l) →
        (∀ k ∈ s1.incl, k ∈ G.map (·.1)) → uSteps s1 ls = some s' →
        ∃ G' : LineAreas, s'.areas = G'.toAreas ∧ (G'.flatMap (·.2.2)).Perm ((done ++ l :: ls).map dynStrip) ∧
          (∀ p ∈ G', p.2.2.Sublist ((done ++ l :: ls).map dynStrip)) ∧
          (G'.map (·.1)) = G.map (·.1) ++ (l :: ls).filterMap opensArea := by
      intro k hk ho s1 hs1 hi hrun
      rw [List.filterMap_cons, ho] at h2 ⊢
      have := ih s1 s' (done ++ [l]) (G.add k (dynStrip l)) (by rw [hs1, h1, toAreas_add]) (by rw [add_keys]; exact h2)
        (by rw [add_keys]; exact hi)
        (by
          refine (add_perm G k _ hk (List.nodup_append.mp h2).1).trans ?_
          rw [List.map_append]
          exact h4.append_right _)
        (by rw [List.map_append]; exact add_sublist G k _ _ h5) hrun
      rw [add_keys] at this
      simpa using this
    cases hst : uStep s l with
    | none => rw [hst] at h6; cases h6
    | some s1 =>
      rw [hst] at h6
      simp only at h6
      unfold uStep at hst
      simp only at hst
      cases hi : s.incl with
      | nil => rw [hi] at hst; cases hst
      | cons k ks =>
        rw [hi] at hst h3
        simp only at hst
        have hkm := h3 k (by simp)
        cases hkind : kind l with
        | area typ key d =>
          rw [hkind] at hst
          simp only [Option.some.injEq] at hst
          have ho : opensArea l = some key := by simp [opensArea, hkind]
          rw [List.filterMap_cons, ho] at h2 ⊢
          simp only at h2 ⊢
          have hkey : key ∉ G.map (·.1) := by
            intro hc
            exact (List.nodup_append.mp h2).2.2 key hc key (by simp) rfl
          have hkd := (List.nodup_append.mp h2).1
          have := ih s1 s' (done ++ [l]) (G.add k (dynStrip l) ++ [(key, typ, [])])
            (by
              rw [← hst, h1, ← toAreas_add]
              simp only
              rw [setKey_absent]
              · simp [LineAreas.toAreas]
              · unfold LineAreas.toAreas; rw [List.map_map]
                have : ((fun x => x.1) ∘ fun p : Text × AreaType × List Text => (p.1, (⟨p.2.1, p.2.2.flatten⟩ : Area))) = (·.1) := rfl
                rw [this, add_keys]; exact hkey)
            (by rw [List.map_append, add_keys]; simpa using h2)
            (by
              rw [← hst]
              intro x hx
              rw [List.map_append, add_keys]
              simp only [List.mem_cons] at hx
              rcases hx with rfl | rfl | hx
              · simp
              · exact List.mem_append_left _ hkm
              · exact List.mem_append_left _ (h3 x (by simp [hx])))
            (by
              rw [List.flatMap_append]
              simp only [List.flatMap_cons, List.flatMap_nil, List.append_nil]
              refine (add_perm G k _ hkm hkd).trans ?_
              rw [List.map_append]
              exact h4.append_right _)
            (by
              intro p hp
              rw [List.map_append]
              rcases List.mem_append.mp hp with hp | hp
              · exact add_sublist G k _ _ h5 p hp
              · simp only [List.mem_singleton] at hp; subst hp; exact List.nil_sublist _) h6
          have e : List.map (·.1) (G.add k (dynStrip l) ++ [(key, typ, [])]) = G.map (·.1) ++ [key] := by
            rw [List.map_append, add_keys]; rfl
          rw [e] at this
          simpa using this
        | region =>
          rw [hkind] at hst
          simp only [Option.some.injEq] at hst
          exact plain k hkm (by simp [opensArea, hkind]) s1 (by rw [← hst]) (by rw [← hst]; exact h3) h6
        | close =>
          rw [hkind] at hst
          simp only at hst
          cases hp : s.path with
          | nil => rw [hp] at hst; cases hst
          | cons p ps =>
            rw [hp] at hst
            simp only at hst
            split at hst
            · cases hks : ks with
              | nil => rw [hks] at hst; cases hst
              | cons k2 ks2 =>
                rw [hks] at hst
                simp only [Option.some.injEq] at hst
                rw [hks] at h3
                exact plain k2 (h3 k2 (by simp)) (by simp [opensArea, hkind]) s1 (by rw [← hst])
                  (by rw [← hst]; intro x hx; exact h3 x (by simp only [List.mem_cons] at hx ⊢; exact .inr hx)) h6
            · simp only [Option.some.injEq] at hst
              exact plain k hkm (by simp [opensArea, hkind]) s1 (by rw [← hst]) (by rw [← hst]; exact h3) h6
        | other =>
          rw [hkind] at hst
          simp only [Option.some.injEq] at hst
          exact plain k hkm (by simp [opensArea, hkind]) s1 (by rw [← hst]) (by rw [← hst]; exact h3) h6

/-- **C16, partial.**  When the areas of a module have distinct names and none is called `root`, splitting either fails or
puts every line into exactly one part: the parts together hold exactly the lines of the module (the dynamic directive
prefix cut off), each part in module order - also for unbalanced modules.  Missing: repeated names and the name `root`,
see below. -/
theorem C16_no_text_lost_partial (t : Text) (A : Areas) (h : unpack t = some A)
    (hn : ("root".toList :: (Brace.lines t).filterMap opensArea).Nodup) :
    ∃ parts : List (Text × AreaType × List Text),
      A = parts.map (fun p => (p.1, ⟨p.2.1, p.2.2.flatten⟩)) ∧
      parts.map (·.1) = "root".toList :: (Brace.lines t).filterMap opensArea ∧
      (parts.flatMap (·.2.2)).Perm ((Brace.lines t).map dynStrip) ∧
      ∀ p ∈ parts, p.2.2.Sublist ((Brace.lines t).map dynStrip) := by
  unfold unpack at h
  rw [Option.map_eq_some_iff] at h
  obtain ⟨s', h1, h2⟩ := h
  obtain ⟨G', g1, g2, g3, g4⟩ := uSteps_parts (Brace.lines t) uInit s' [] [("root".toList, .incl, [])] rfl hn
    (by simp [uInit]) (by simp) (by simp) h1
  exact ⟨G', by rw [← h2, g1]; rfl, g4, g2, g3⟩

example : unpack "a\n#Область include_x_y\nb\n#КонецОбласти\nc".toList =
      some [("root".toList, ⟨.incl, "a\n#Область include_x_y\n#КонецОбласти\nc".toList⟩), ("x_y".toList, ⟨.incl, "b\n".toList⟩)] ∧
    ("root".toList :: (Brace.lines "a\n#Область include_x_y\nb\n#КонецОбласти\nc".toList).filterMap opensArea).Nodup := by
  decide +kernel

/-- **C16 is false of the code for repeated names.**  When the same area occurs twice, the text `x` of its first
occurrence is in no part at all, whatever it is, and no error is raised. -/
theorem C16_repeated_area_lost (a x y z key : Text) (typ : AreaType) (d : Option Text) (p ps)
    (ha : kind a = .area typ key d) (hz : kind z = .close) (hx : kind x = .other) (hy : kind y = .other)
    (hk : key ≠ []) (hroot : key ≠ "root".toList) :
    uSteps ⟨[("root".toList, ⟨.incl, p⟩)], ps, ["root".toList]⟩ [a, x, z, a, y, z] =
      some ⟨[("root".toList, ⟨.incl, p ++ dynStrip a ++ dynStrip z ++ dynStrip a ++ dynStrip z⟩), (key, ⟨typ, dynStrip y⟩)], ps, ["root".toList]⟩ := by
  generalize "root".toList = r at *
  simp [uSteps, uStep, ha, hz, hx, hy, hk, hroot, Ne.symm hroot, addTo, setKey]

/-- **C16 is false of the code for an area named `root`.**  Everything before it is lost. -/
theorem C16_root_area_loses (a x z : Text) (typ : AreaType) (d : Option Text) (p ps)
    (ha : kind a = .area typ "root".toList d) (hz : kind z = .close) (hx : kind x = .other) :
    uSteps ⟨[("root".toList, ⟨.incl, p⟩)], ps, ["root".toList]⟩ [a, x, z] =
      some ⟨[("root".toList, ⟨typ, dynStrip x ++ dynStrip z⟩)], ps, ["root".toList]⟩ := by
  simp [uSteps, uStep, ha, hz, hx, addTo, setKey]

example : kind "#Область include_root\n".toList = .area .incl "root".toList none ∧ kind "#КонецОбласти\n".toList = .close ∧
    kind "А = 1;\n".toList = .other ∧ kind "#Область include_a_b\n".toList = .area .incl "a_b".toList none := by decide +kernel

/-! ## C17 -/

/-- number of region and area openings, and of closings, in some lines -/
def openings (ls : List Text) : Nat := ls.countP (fun l => match kind l with
  | .area .. => true
  | .region => true
  | _ => false)
def closings (ls : List Text) : Nat := ls.countP (fun l => kind l = .close)

theorem uSteps_none (ls : List Text) : ∀ (s : UState), s.path.countP (· ≠ []) < s.incl.length →
    (uSteps s ls = none ↔ ∃ n, n ≤ ls.length ∧ openings (ls.take n) + s.path.length < closings (ls.take n)) := by
  induction ls with
  | nil => intro s _; simp [uSteps, openings, closings]
  | cons l ls ih =>
    intro s hs
    obtain ⟨A, path, incl⟩ := s
    simp only at hs
    have step : ∀ s1 : UState, uStep ⟨A, path, incl⟩ l = some s1 → s1.path.countP (· ≠ []) < s1.incl.length →
        (openings [l] + path.length = closings [l] + s1.path.length) → (openings [l] = 0 ∨ closings [l] = 0) →
        (closings [l] ≤ openings [l] + path.length) →
        (uSteps ⟨A, path, incl⟩ (l :: ls) = none ↔
          ∃ n, n ≤ (l :: ls).length ∧ openings ((l :: ls).take n) + path.length < closings ((l :: ls).take n)) := by
      intro s1 h1 h2 h3 h4 h5
      rw [uSteps, h1]
      simp only
      rw [ih s1 h2]
      have ho : ∀ n, openings ((l :: ls).take (n + 1)) = openings [l] + openings (ls.take n) := by
        intro n; rw [List.take_succ_cons]; unfold openings; rw [← List.countP_append]; rfl
      have hc : ∀ n, closings ((l :: ls).take (n + 1)) = closings [l] + closings (ls.take n) := by
        intro n; rw [List.take_succ_cons]; unfold closings; rw [← List.countP_append]; rfl
      constructor
      · rintro ⟨n, hn, hlt⟩
        refine ⟨n + 1, by simp; omega, ?_⟩
        rw [ho, hc]; omega
      · rintro ⟨n, hn, hlt⟩
        cases n with
        | zero => simp [openings, closings] at hlt
        | succ n =>
          refine ⟨n, by simp at hn; omega, ?_⟩
          rw [ho, hc] at hlt; omega
    cases incl with
    | nil => simp at hs
    | cons k ks =>
      cases hk : kind l with
      | area typ key d =>
        refine step _ (by simp [uStep, hk]; rfl) ?_ (by simp [openings, closings, hk]; omega) (by simp [closings, hk]) (by simp [closings, hk])
        simp only [List.length_cons] at hs ⊢
        rw [List.countP_cons]
        split <;> omega
      | region =>
        refine step _ (by simp [uStep, hk]; rfl) ?_ (by simp [openings, closings, hk]; omega) (by simp [closings, hk]) (by simp [closings, hk])
        simp only [List.length_cons] at hs ⊢
        rw [List.countP_cons_of_neg (by simp)]
        omega
      | other =>
        refine step _ (by simp [uStep, hk]; rfl) ?_ (by simp [openings, closings, hk]) (by simp [closings, hk]) (by simp [closings, hk])
        exact hs
      | close =>
        cases path with
        | nil =>
          have : uSteps ⟨A, [], k :: ks⟩ (l :: ls) = none := by simp [uSteps, uStep, hk]
          rw [this]
          simp only [true_iff]
          exact ⟨1, by simp, by simp [openings, closings, hk]⟩
        | cons p ps =>
          by_cases hp : p = []
          · subst hp
            refine step ⟨addTo A k (dynStrip l), ps, k :: ks⟩ (by simp [uStep, hk]) ?_ (by simp [openings, closings, hk]; omega) (by simp [openings, hk])
              (by simp [closings, openings, hk])
            simpa using hs
          · cases ks with
            | nil =>
              rw [List.countP_cons_of_pos (by simpa using hp)] at hs
              simp at hs
            | cons k2 ks2 =>
              refine step ⟨addTo A k2 (dynStrip l), ps, k2 :: ks2⟩ (by simp [uStep, hk, hp]) ?_ (by simp [openings, closings, hk]; omega) (by simp [openings, hk])
                (by simp [closings, openings, hk])
              rw [List.countP_cons_of_pos (by simpa using hp)] at hs
              simp only [List.length_cons] at hs ⊢
              omega

/-- **C17, partial: exactly what is reported.**  Splitting a module fails if and only if at some line the closings exceed
the openings by two or more.  Missing: one superfluous closing and unclosed areas are accepted, see below. -/
theorem C17_reported_iff_partial (t : Text) :
    unpack t = none ↔ ∃ n, n ≤ (Brace.lines t).length ∧
      openings ((Brace.lines t).take n) + 2 ≤ closings ((Brace.lines t).take n) := by
  unfold unpack
  rw [Option.map_eq_none_iff, uSteps_none _ uInit (by simp [uInit])]
  have : uInit.path.length = 1 := rfl
  simp only [this]
  constructor <;> (rintro ⟨n, h1, h2⟩; exact ⟨n, h1, by omega⟩)

/-- **C17 is false of the code for unclosed areas**: a module that opens areas and never closes one is always accepted. -/
theorem C17_unclosed_accepted (t : Text) (h : closings (Brace.lines t) = 0) : unpack t ≠ none := by
  rw [ne_eq, C17_reported_iff_partial]
  rintro ⟨n, _, h2⟩
  have : closings ((Brace.lines t).take n) ≤ closings (Brace.lines t) :=
    (List.take_sublist n _).countP_le
  omega

example : closings (Brace.lines "#Область include_a_b\nx\n".toList) = 0 ∧ openings (Brace.lines "#Область include_a_b\nx\n".toList) = 1 := by
  decide +kernel

/-- **C17 is false of the code for one superfluous closing.** -/
theorem C17_one_extra_closing_accepted : unpack "x\n#КонецОбласти\ny\n".toList ≠ none ∧
    unpack "x\n#КонецОбласти\n#КонецОбласти\ny\n".toList = none := by decide +kernel

end V8.Code
