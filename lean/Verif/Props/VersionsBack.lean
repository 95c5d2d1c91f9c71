import Verif.Props.Versions
/-
C75, the build, and what goes wrong.
-/
namespace V8.Versions
open V8.Str V8.Enc V8.Dec V8.Code V8.Brace V8.Descent
open V8.Org (Sys Content World Item Write isCode isElem put puts clear txt texts forms tasks areasOf ModuleOk FormOk codeAreas elemAreas Ready)

variable {V : Type}

theorem laid_some {names : V → List Text} {s : Sys} {d : Nat} {w : World V} {l : List (Item V)} {M : Dir → Text → List Code.Node} {E : Dir → Text → V8.Areas.Elems V}
    {w' : World V} (h : Laid names s d w l M E w') (i : Item V) (hi : i ∈ l) : w' (s.src ++ i.1, stored d i.2.1) ≠ none := by
  rcases Org.kind_cases i.2.1 with ⟨k1, k2⟩ | ⟨k1, k2⟩ | ⟨k1, k2⟩
  · rw [stored_plain d _ k2, h.code i hi k1]
    exact fun h => by cases h
  · obtain ⟨_, _, _, hw⟩ := h.elem i hi k2
    unfold stored
    rw [k2]
    simp only [if_true]
    rw [hw]
    exact fun h => by cases h
  · rw [stored_plain d _ k2, h.plain i hi k1 k2]
    exact fun h => by cases h

/-- the source folder has the files of `l`, under the names of version `d`, and no others -/
structure Stands (s : Sys) (d : Nat) (l : List (Item V)) (w' : World V) : Prop where
  some : ∀ i ∈ l, w' (s.src ++ i.1, stored d i.2.1) ≠ none
  only : ∀ p m, w' (s.src ++ p, m) ≠ none → ∃ i ∈ l, i.1 = p ∧ m = stored d i.2.1

theorem Laid.stands {names : V → List Text} {s : Sys} {d : Nat} {w : World V} {l : List (Item V)} {M : Dir → Text → List Code.Node} {E : Dir → Text → V8.Areas.Elems V}
    {w' : World V} (h : Laid names s d w l M E w') : Stands s d l w' := ⟨laid_some h, h.only⟩

/-! ### the file a build uses -/

theorem has_version {s : Sys} {d : Nat} {l : List (Item V)}
    (ok : Fit s d l) {w' : World V} (h : Stands s d l w') {view : Dir → Folder} (hv : Views s w' view) (p : Dir) (n : Text) (hn : '.' ∈ n) (v : Nat)
    (hh : HasVersion (view p) n v) : v = d ∧ ∃ j ∈ l, j.1 = p ∧ isElem j.2.1 = false ∧ n = j.2.1 := by
  obtain ⟨h1, h2⟩ := hh
  obtain ⟨j, hj, j1, j2⟩ := h.only p _ (((hv p).1 _).mp h2)
  cases k : isElem j.2.1 with
  | true =>
    unfold stored at j2
    rw [k] at j2
    exact absurd j2.symm (elem_no_version _ k n v h1)
  | false =>
    rw [stored_plain d _ k] at j2
    obtain ⟨g1, g2⟩ := version_only ok n hn v h1 j hj j2
    exact ⟨g2, j, hj, j1, k, g1⟩

theorem view_clear {s : Sys} {d : Nat} {l : List (Item V)}
    {w' : World V} (h : Stands s d l w') {view : Dir → Folder} (hv : Views s w' view) (p : Dir) (n : Text)
    (hc : ClearNames (storedNames d l p) n) : ClearNames (view p) n := by
  refine clear_of_mono (view p) _ _ (fun m hm => ?_) hc
  obtain ⟨j, hj, j1, j2⟩ := h.only p m (((hv p).1 m).mp hm)
  rw [j2, ← j1]
  exact isFile_stored d l j hj

/-- a file of the product is found under the name it has in the sources -/
theorem near_stored {s : Sys} {d : Nat} {l : List (Item V)}
    (ok : Fit s d l) {w' : World V} (h : Stands s d l w') {view : Dir → Folder} (hv : Views s w' view) (d' : Nat) (hd : d ≤ d')
    (i : Item V) (hi : i ∈ l) : near (view i.1) i.2.1 d' = some (stored d i.2.1) := by
  have hfile : isFile (view i.1) (stored d i.2.1) = true := ((hv i.1).1 _).mpr (h.some i hi)
  cases k : isElem i.2.1 with
  | false =>
    rw [stored_plain d _ k] at hfile ⊢
    rcases near_spec (view i.1) i.2.1 (ok.dots i hi) (view_clear h hv i.1 _ (ok.alone i hi)) d' with ⟨v, h1, _, _, h4⟩ | ⟨h1, h2⟩
    · rw [h4, (has_version ok h hv i.1 _ (ok.dots i hi) v h1).1]
    · rcases Nat.eq_zero_or_pos d with rfl | hp
      · rw [descentName_zero] at hfile ⊢
        rw [h2, if_pos]
        obtain ⟨c, hc⟩ := (isFile_iff _ _).mp hfile
        exact List.mem_map.mpr ⟨_, hc, rfl⟩
      · have := h1 d ⟨hp, hfile⟩
        omega
  | true =>
    have hst : stored d i.2.1 = i.2.1 := by
      unfold stored
      rw [k]
      rfl
    rw [hst] at hfile ⊢
    rcases near_spec (view i.1) i.2.1 (ok.dots i hi) (view_clear h hv i.1 _ (ok.alone i hi)) d' with ⟨v, h1, _⟩ | ⟨_, h2⟩
    · obtain ⟨_, j, _, _, hj, he⟩ := has_version ok h hv i.1 _ (ok.dots i hi) v h1
      rw [he, hj] at k
      cases k
    · rw [h2, if_pos]
      obtain ⟨c, hc⟩ := (isFile_iff _ _).mp hfile
      exact List.mem_map.mpr ⟨_, hc, rfl⟩

theorem dot_descentName (n : Text) (hd : '.' ∈ n) (d : Nat) : '.' ∈ descentName n d := by
  rcases Nat.eq_zero_or_pos d with rfl | h
  · rwa [descentName_zero]
  rw [descentName_eq n hd d h]
  simp

/-- looked for a second time, a module is found again -/
theorem near_again {s : Sys} {d : Nat} {l : List (Item V)}
    (ok : Fit s d l) {w' : World V} (h : Stands s d l w') {view : Dir → Folder} (hv : Views s w' view) (d' : Nat)
    (i : Item V) (hi : i ∈ l) (hk : isCode i.2.1 = true) : near (view i.1) (descentName i.2.1 d) d' = some (descentName i.2.1 d) := by
  have k : isElem i.2.1 = false := by
    unfold isElem
    rw [hk]
    rfl
  have hfile : isFile (view i.1) (descentName i.2.1 d) = true := by
    rw [← stored_plain d _ k]
    exact ((hv i.1).1 _).mpr (h.some i hi)
  rcases near_spec (view i.1) (descentName i.2.1 d) (dot_descentName _ (ok.dots i hi) d) (view_clear h hv i.1 _ (ok.aloneAgain i hi hk)) d' with
    ⟨v, h1, _⟩ | ⟨_, h2⟩
  · obtain ⟨hvd, j, hj, j1, _, he⟩ := has_version ok h hv i.1 _ (dot_descentName _ (ok.dots i hi) d) v h1
    have hp := h1.1
    rw [hvd] at hp
    rw [ok.once j hj i hi j1 k he.symm] at he
    exact absurd he (descentName_ne _ d hp)
  · rw [h2, if_pos]
    obtain ⟨c, hc⟩ := (isFile_iff _ _).mp hfile
    exact List.mem_map.mpr ⟨_, hc, rfl⟩

/-- one file is built as it was -/
theorem pack_one {names : V → List Text} {s : Sys} {d : Nat} {w : World V} {l : List (Item V)} {M : Dir → Text → List Code.Node} {E : Dir → Text → V8.Areas.Elems V}
    (rd : Ready names s w l M E) (ok : Fit s d l) {w' : World V} (h : Laid names s d w l M E w') {view : Dir → Folder} (hv : Views s w' view) (d' : Nat) (hd : d ≤ d')
    (fuel : Nat) (i : Item V) (hi : i ∈ l) (hf : isCode i.2.1 = true → nodesDepth (M i.1 i.2.1) < fuel) :
    packOne names s w' view d' fuel i.1 (some i.2.1) = some i.2.2 := by
  unfold packOne
  simp only
  rw [near_stored ok h.stands hv d' hd i hi, Option.bind_some]
  rcases Org.kind_cases i.2.1 with ⟨h1, h2⟩ | ⟨h1, h2⟩ | ⟨h1, h2⟩
  · rw [if_pos h1, stored_plain d _ h2, near_again ok h.stands hv d' i hi h1, Option.bind_some]
    obtain ⟨m1, m2⟩ := rd.module i hi h1
    obtain ⟨n, rfl⟩ : ∃ n, fuel = n + 1 := ⟨fuel - 1, by have := hf h1; omega⟩
    rw [m1]
    have hcode := h.code i hi h1
    have hareas : ∀ p ∈ nodesAreas (M i.1 i.2.1), w' (parse s.env p.1 (s.src ++ i.1)) = some (txt s p.2.2.flatten) := fun p hp =>
      h.area (parse s.env p.1 (s.src ++ i.1), p.2.1, p.2.2.flatten) (List.mem_flatMap.mpr ⟨i, List.mem_filter.mpr ⟨hi, h1⟩, List.mem_map.mpr ⟨p, hp, rfl⟩⟩)
    have hfuel := hf h1
    generalize M i.1 i.2.1 = m at *
    have hg := good_of_proper m2.proper
    have hroot : texts w' (s.src ++ i.1, descentName i.2.1 d) = some (nodesOwn m).flatten :=
      Org.texts_txt s w' _ _ (fun hc => m2.unix (Org.own_chars m _ hc)) hcode
    have hp : packFile s.env (texts w') (n + 1) (s.src ++ i.1, descentName i.2.1 d) none = some (text m) := by
      rw [packFile, hroot]
      simp only
      rw [own_proper m hg]
      refine pack_nodes s.env (s.src ++ i.1) (s.src ++ i.1, descentName i.2.1 d) (texts w') m false none ?_ (s.src ++ i.1) (fun _ => rfl) hg ?_ n ?_
      · exact Org.wfs_mono (fun b k hk => Or.inl hk) m false none m2.wf
      · intro p hp
        exact Org.texts_txt s w' _ _ (fun hc => m2.unix (Org.area_chars m p hp _ hc)) (hareas p hp)
      · omega
    rw [hp]
    rfl
  · rw [if_neg (by rw [h1]; exact Bool.false_ne_true), if_pos h2]
    obtain ⟨m1, m2⟩ := rd.form i hi h2
    obtain ⟨tree, data, ho, hw⟩ := h.elem i hi h2
    have hst : stored d i.2.1 = i.2.1 := by
      unfold stored
      rw [h2]
      rfl
    rw [m1, hst, show (fun key => V8.OrgIndex.elemFile s (V8.OrgIndex.ext9 i.2.1) key (s.src ++ i.1)) = fun key => Org.elemFile s key (s.src ++ i.1) from
      funext (fun key => V8.OrgIndex.elemFile_eq s i.2.1 h2 key (s.src ++ i.1))]
    have harea := fun a ha => h.elemArea (Org.elemFile s a.1 (s.src ++ i.1), a.2) (List.mem_flatMap.mpr ⟨i, List.mem_filter.mpr ⟨hi, h2⟩,
      List.mem_map.mpr ⟨a, ha, rfl⟩⟩)
    generalize E i.1 i.2.1 = e at *
    have hread : ∀ a ∈ areasOf names e, (fun n => forms w' (Org.elemFile s n (s.src ++ i.1))) a.1 = some a.2 := by
      intro a ha
      show forms w' (Org.elemFile s a.1 (s.src ++ i.1)) = _
      unfold forms
      rw [harea a ha]
    obtain ⟨X, n1, n2, n3, n4, _⟩ := V8.Areas.areas_rt names (fun n => forms w' (Org.elemFile s n (s.src ++ i.1))) e.tree [] e.data data tree _ ho m2.groups hread
    have hmain : forms w' (s.src ++ i.1, i.2.1) = some ⟨tree, data, e.extra⟩ := by
      unfold forms
      rw [hw]
    unfold V8.Areas.pack
    rw [hmain]
    simp only
    rw [n4, n3, V8.Areas.putAll_eraseAll e.data X n1 n2]
    rfl
  · rw [if_neg (by rw [h1]; exact Bool.false_ne_true), if_neg (by rw [h2]; exact Bool.false_ne_true), stored_plain d _ h2]
    exact h.plain i hi h1 h2

theorem pack_all {names : V → List Text} {s : Sys} {w : World V} {view : Dir → Folder} {d fuel : Nat} :
    ∀ (ls : List (Dir × Option Text)), (∀ f ∈ ls, ∃ n c, f.2 = some n ∧ packOne names s w view d fuel f.1 f.2 = some c) →
    ∃ b, pack names s w view d fuel ls = some b ∧ ∀ f, b f = if (f.1, some f.2) ∈ ls then packOne names s w view d fuel f.1 (some f.2) else none
  | [], _ => ⟨_, rfl, fun f => by rw [if_neg List.not_mem_nil]⟩
  | f :: r, h => by
    obtain ⟨b, h1, h2⟩ := pack_all r (fun g hg => h g (List.mem_cons_of_mem _ hg))
    obtain ⟨n, c, hn, hp⟩ := h f List.mem_cons_self
    rw [pack, hp]
    simp only
    rw [h1, Option.map_some]
    refine ⟨_, rfl, fun g => ?_⟩
    rw [h2 g]
    by_cases hg : (g.1, some g.2) ∈ r
    · rw [if_pos hg, if_pos (List.mem_cons_of_mem _ hg)]
      obtain ⟨n', c', _, hp'⟩ := h _ (List.mem_cons_of_mem _ hg)
      simp only at hp'
      rw [hp']
      rfl
    · rw [if_neg hg, Option.none_or]
      by_cases hf : f.2 = some g.2 ∧ f.1 = g.1
      · rw [if_pos hf, if_pos (List.mem_cons.mpr (.inl (by rw [← hf.1, ← hf.2]))), ← hf.1, ← hf.2, hp]
      · rw [if_neg hf, if_neg (fun hm => by
          rcases List.mem_cons.mp hm with e | e
          · exact hf ⟨by rw [← e], by rw [← e]⟩
          · exact hg e)]

/-- the names that are built are those of the product -/
theorem listed {s : Sys} {d : Nat} {l : List (Item V)}
    (ok : Fit s d l) {w' : World V} (h : Stands s d l w') (ls : List (Dir × Option Text)) (hls : Listing s w' ls) (p : Dir) (x : Option Text) :
    (p, x) ∈ ls ↔ ∃ i ∈ l, i.1 = p ∧ x = some i.2.1 := by
  rw [hls p x]
  constructor
  · rintro ⟨⟨m, hm, hx⟩, _⟩
    obtain ⟨i, hi, h1, h2⟩ := h.only p m hm
    rw [h2, stored_removed ok i hi] at hx
    exact ⟨i, hi, h1, hx.symm⟩
  · rintro ⟨i, hi, rfl, rfl⟩
    refine ⟨⟨stored d i.2.1, h.some i hi, stored_removed ok i hi⟩, ?_⟩
    intro n hn q m
    cases hn
    apply Classical.byContradiction
    intro hne
    rw [List.append_assoc] at hne
    obtain ⟨j, hj, j1, _⟩ := h.only _ m hne
    exact (ok.folders i hi j hj).1 ⟨q, by rw [j1, List.append_assoc]; rfl⟩

/-- **C75.**  A folder extracted at version `d` is put together by a build at version `d`, or any later one, as it was: the same files under the same paths,
each with the same content - whatever was in the source folder before, for every order in which the files are listed and the tasks run. -/
theorem C75_folder_back (names : V → List Text) (s : Sys) (d : Nat) (w w' : World V) (l : List (Item V)) (M : Dir → Text → List Code.Node)
    (E : Dir → Text → V8.Areas.Elems V) (rd : Ready names s w l M E) (ok : Fit s d l) (out : AreasOutside s l M) (h : Unpacked names s d w l w')
    (d' : Nat) (hd : d ≤ d') (view : Dir → Folder) (hv : Views s w' view) (ls : List (Dir × Option Text)) (hls : Listing s w' ls)
    (fuel : Nat) (hf : ∀ i ∈ l, isCode i.2.1 = true → nodesDepth (M i.1 i.2.1) < fuel) :
    ∃ b, pack names s w' view d' fuel ls = some b ∧ ∀ p n c, b (p, n) = some c ↔ (p, n, c) ∈ l := by
  have hl := laid rd ok out h
  have hin := listed ok hl.stands ls hls
  obtain ⟨b, h1, h2⟩ := pack_all (names := names) (s := s) (w := w') (view := view) (d := d') (fuel := fuel) ls (by
    rintro ⟨p, x⟩ hm
    obtain ⟨i, hi, rfl, rfl⟩ := (hin p x).mp hm
    exact ⟨i.2.1, i.2.2, rfl, pack_one rd ok hl hv d' hd fuel i hi (hf i hi)⟩)
  refine ⟨b, h1, fun p n c => ?_⟩
  rw [h2]
  simp only
  constructor
  · intro hc
    by_cases hm : (p, some n) ∈ ls
    · rw [if_pos hm] at hc
      obtain ⟨i, hi, rfl, hx⟩ := (hin p _).mp hm
      cases hx
      rw [pack_one rd ok hl hv d' hd fuel i hi (hf i hi)] at hc
      cases hc
      exact hi
    · rw [if_neg hm] at hc
      cases hc
  · intro hm
    have hp := pack_one rd ok hl hv d' hd fuel (p, n, c) hm (hf _ hm)
    rw [if_pos ((hin p _).mpr ⟨_, hm, rfl, rfl⟩)]
    exact hp

/-- **C75, where the files are.**  After an extraction at version `d` the source folder holds, for every file `base.e` of the product, the file `base.d.e` - for
files of elements the file itself - and no other file. -/
theorem C75_where (names : V → List Text) (s : Sys) (d : Nat) (w w' : World V) (l : List (Item V)) (M : Dir → Text → List Code.Node)
    (E : Dir → Text → V8.Areas.Elems V) (rd : Ready names s w l M E) (ok : Fit s d l) (out : AreasOutside s l M) (h : Unpacked names s d w l w') (p : Dir) (m : Text) :
    w' (s.src ++ p, m) ≠ none ↔ (∃ c, (p, m, c) ∈ l ∧ isElem m = true) ∨
      ∃ base e c, '.' ∉ e ∧ (p, base ++ '.' :: e, c) ∈ l ∧ isElem (base ++ '.' :: e) = false ∧ m = versionFile base e d := by
  have hl := laid rd ok out h
  constructor
  · intro hm
    obtain ⟨i, hi, rfl, rfl⟩ := hl.only p m hm
    cases k : isElem i.2.1 with
    | true =>
      left
      refine ⟨i.2.2, ?_, ?_⟩ <;> unfold stored <;> rw [k]
      · exact hi
      · exact k
    | false =>
      right
      have hn := file_eq i.2.1 (ok.dots i hi)
      refine ⟨stem i.2.1, ext i.2.1, i.2.2, ext_noDot _, ?_, ?_, ?_⟩
      · rw [← hn]
        exact hi
      · rw [← hn]
        exact k
      · rw [stored_plain d _ k, ← descentName_base _ _ (ext_noDot _), ← hn]
  · rintro (⟨c, hc, k⟩ | ⟨base, e, c, he, hc, k, rfl⟩)
    · have := laid_some hl _ hc
      simp only [stored, k, if_true] at this
      exact this
    · have := laid_some hl _ hc
      simp only at this
      rw [stored_plain d _ k, descentName_base _ _ he] at this
      exact this

/-- **C75, the files outside.**  Extraction touches nothing outside the source folder but the files of the areas, which carry no version. -/
theorem C75_outside (names : V → List Text) (s : Sys) (d : Nat) (w w' : World V) (l : List (Item V)) (M : Dir → Text → List Code.Node)
    (E : Dir → Text → V8.Areas.Elems V) (rd : Ready names s w l M E) (ok : Fit s d l) (out : AreasOutside s l M) (h : Unpacked names s d w l w') :
    (∀ a ∈ codeAreas s M l, w' a.1 = some (txt s a.2.2)) ∧ (∀ a ∈ elemAreas names s E l, w' a.1 = some (.elems a.2)) ∧
    ∀ f, ¬ s.src <+: f.1 → f ∉ (codeAreas s M l).map (·.1) → f ∉ (elemAreas names s E l).map (·.1) → w' f = w f :=
  ⟨(laid rd ok out h).area, (laid rd ok out h).elemArea, (laid rd ok out h).rest⟩

/-- **C75, any schedule.**  The files after extraction do not depend on the order in which the tasks look at the folder and write. -/
theorem C75_any_schedule (names : V → List Text) (s : Sys) (d : Nat) (w w1 w2 : World V) (l : List (Item V)) (M : Dir → Text → List Code.Node)
    (E : Dir → Text → V8.Areas.Elems V) (rd : Ready names s w l M E) (ok : Fit s d l) (out : AreasOutside s l M) (h1 : Unpacked names s d w l w1)
    (h2 : Unpacked names s d w l w2) : w1 = w2 := by
  have l1 := laid rd ok out h1
  have l2 := laid rd ok out h2
  funext f
  by_cases hf : s.src <+: f.1
  · obtain ⟨p, hp⟩ := hf
    obtain ⟨dir, n⟩ := f
    simp only at hp
    subst hp
    by_cases hm : ∃ i ∈ l, i.1 = p ∧ n = stored d i.2.1
    · obtain ⟨i, hi, rfl, rfl⟩ := hm
      rcases Org.kind_cases i.2.1 with ⟨k1, k2⟩ | ⟨k1, k2⟩ | ⟨k1, k2⟩
      · rw [stored_plain d _ k2, l1.code _ hi k1, l2.code _ hi k1]
      · obtain ⟨t1, d1, o1, e1⟩ := l1.elem _ hi k2
        obtain ⟨t2, d2, o2, e2⟩ := l2.elem _ hi k2
        rw [o1] at o2
        cases o2
        simp only [stored, k2, if_true]
        exact e1.trans e2.symm
      · rw [stored_plain d _ k2, l1.plain _ hi k1 k2, l2.plain _ hi k1 k2]
    · have n1 : w1 (s.src ++ p, n) = none := Classical.byContradiction (fun hn => hm (l1.only p n hn))
      have n2 : w2 (s.src ++ p, n) = none := Classical.byContradiction (fun hn => hm (l2.only p n hn))
      rw [n1, n2]
  · by_cases hc : f ∈ (codeAreas s M l).map (·.1)
    · obtain ⟨a, ha, rfl⟩ := List.mem_map.mp hc
      rw [l1.area a ha, l2.area a ha]
    · by_cases he : f ∈ (elemAreas names s E l).map (·.1)
      · obtain ⟨a, ha, rfl⟩ := List.mem_map.mp he
        rw [l1.elemArea a ha, l2.elemArea a ha]
      · rw [l1.rest f hf hc he, l2.rest f hf hc he]

end V8.Versions
