import Verif.Props.VersionsBack
/-
C75: runs exist; older builds, the order of the listing, sources without versions.
-/
namespace V8.Versions
open V8.Str V8.Enc V8.Dec V8.Code V8.Brace V8.Descent
open V8.Org (Sys Content World Item Write isCode isElem put puts clear txt texts forms tasks areasOf ModuleOk FormOk codeAreas elemAreas Ready)

variable {V : Type}

/-! ### runs exist -/

/-- the files of the source folder are those of a list -/
def Held (s : Sys) (v : World V) (F : List (Dir × Text)) : Prop := ∀ p m, v (s.src ++ p, m) ≠ none ↔ (p, m) ∈ F

theorem shows_ex (s : Sys) (v : World V) (F : List (Dir × Text)) (h : Held s v F) (p : Dir) : ∃ dir, Shows v (s.src ++ p) dir := by
  refine ⟨(F.filter (fun f => f.1 = p)).map (fun f => (f.2, some [])) ++
    (F.filter (fun f => p.isPrefixOf f.1)).filterMap (fun f => ((f.1.drop p.length).head?).map (fun n => (n, none))), ?_, ?_⟩
  · intro n
    rw [h p n, isFile_iff]
    constructor
    · rintro ⟨c, hc⟩
      rcases List.mem_append.mp hc with hc | hc
      · obtain ⟨f, hf, he⟩ := List.mem_map.mp hc
        rw [List.mem_filter, decide_eq_true_eq] at hf
        cases he
        obtain ⟨f1, f2⟩ := f
        obtain ⟨g1, g2⟩ := hf
        simp only at g2
        rw [← g2]
        exact g1
      · obtain ⟨f, _, he⟩ := List.mem_filterMap.mp hc
        rw [Option.map_eq_some_iff] at he
        obtain ⟨_, _, he⟩ := he
        cases he
    · intro hm
      exact ⟨[], List.mem_append_left _ (List.mem_map.mpr ⟨(p, n), List.mem_filter.mpr ⟨hm, by simp⟩, rfl⟩)⟩
  · intro n
    constructor
    · intro hc
      rcases List.mem_append.mp hc with hc | hc
      · obtain ⟨f, _, he⟩ := List.mem_map.mp hc
        cases he
      · obtain ⟨⟨q, m⟩, hf, he⟩ := List.mem_filterMap.mp hc
        rw [List.mem_filter, List.isPrefixOf_iff_prefix] at hf
        obtain ⟨hf, t, ht⟩ := hf
        simp only at ht he
        subst ht
        rw [List.drop_left] at he
        cases t with
        | nil => cases he
        | cons a t =>
          cases he
          refine ⟨t, m, ?_⟩
          rw [List.append_assoc]
          exact (h _ _).mpr hf
    · rintro ⟨q, m, hq⟩
      rw [List.append_assoc] at hq
      refine List.mem_append_right _ (List.mem_filterMap.mpr ⟨(p ++ n :: q, m), List.mem_filter.mpr ⟨(h _ _).mp hq, ?_⟩, ?_⟩)
      · rw [List.isPrefixOf_iff_prefix]
        exact List.prefix_append _ _
      · simp only [List.drop_left]
        rfl

theorem held_put {s : Sys} {d : Nat} {l : List (Item V)} (w : World V) (F : List (Dir × Text)) (hw : Held s w F) (x : Put V) (hx : Good s l x) :
    ∃ F', Held s (put w (kept s d x)) F' := by
  rcases hx with ⟨i, hi, he, hx⟩ | hx
  · have h1 : inside s x.file.1 = true := by rw [hx]; exact inside_prefix s i.1
    have hk : kept s d x = ((s.src ++ i.1, descentName i.2.1 d), x.content) := by
      unfold kept
      rw [if_pos h1, hx]
    refine ⟨(i.1, descentName i.2.1 d) :: F, fun p m => ?_⟩
    rw [hk]
    show (if (s.src ++ p, m) = (s.src ++ i.1, descentName i.2.1 d) then some x.content else w (s.src ++ p, m)) ≠ none ↔ _
    by_cases hf : (s.src ++ p, m) = (s.src ++ i.1, descentName i.2.1 d)
    · rw [if_pos hf]
      obtain ⟨g1, g2⟩ := Org.file_inj hf
      exact ⟨fun _ => List.mem_cons.mpr (.inl (by rw [g1, g2])), fun _ h => by cases h⟩
    · rw [if_neg hf, hw p m, List.mem_cons]
      constructor
      · exact .inr
      · rintro (h | h)
        · injection h with g1 g2
          exact absurd (by rw [g1, g2]) hf
        · exact h
  · refine ⟨F, fun p m => ?_⟩
    have hk : kept s d x = (x.file, x.content) := by
      unfold kept
      rw [if_neg (by rw [hx]; exact Bool.false_ne_true)]
    rw [hk, ← hw p m]
    show (if (s.src ++ p, m) = x.file then some x.content else w (s.src ++ p, m)) ≠ none ↔ _
    rw [if_neg]
    intro hf
    rw [← hf] at hx
    simp only [inside_prefix] at hx
    cases hx

theorem saves_ex {s : Sys} {d : Nat} {l : List (Item V)} (ok : Fit s d l) (pool : Bool) : ∀ (L : List (Put V)) (w : World V) (h : List (World V)) (F : List (Dir × Text)),
    Held s w F → Inv s d l w → (∀ x ∈ L, Good s l x) → ∃ v h' F', Saves s d pool (w :: h) L (v :: h') ∧ Held s v F' ∧ Inv s d l v
  | [], w, h, F, hF, hi, _ => ⟨w, h, F, .done _, hF, hi⟩
  | x :: L, w, h, F, hF, hi, hg => by
    have hx := hg x List.mem_cons_self
    obtain ⟨F', hF'⟩ := held_put (d := d) w F hF x hx
    obtain ⟨v, h', F'', h1, h2, h3⟩ := saves_ex ok pool L (put w (kept s d x)) (w :: h) F' hF' (inv_put w hi x hx) (fun y hy => hg y (List.mem_cons_of_mem _ hy))
    have hdir : ∃ dir, inside s x.file.1 = true → Shows w x.file.1 dir := by
      rcases hx with ⟨i, hi, he, hx⟩ | hx
      · rw [hx]
        obtain ⟨dir, hd⟩ := shows_ex s w F hF i.1
        exact ⟨dir, fun _ => hd⟩
      · exact ⟨[], fun h => by rw [hx] at h; cases h⟩
    obtain ⟨dir, hd⟩ := hdir
    exact ⟨v, h', F'', .step w h x L w dir _ _ List.mem_cons_self hd (save_one ok w hi x hx dir hd w) h1, h2, h3⟩

/-- **C75, it runs.**  The extraction of such a folder does not fail, provided the elements of the forms can be divided; and what it leaves can be listed and
looked at. -/
theorem C75_runs (names : V → List Text) (s : Sys) (d : Nat) (w : World V) (l : List (Item V)) (M : Dir → Text → List Code.Node)
    (E : Dir → Text → V8.Areas.Elems V) (rd : Ready names s w l M E) (ok : Fit s d l) (out : AreasOutside s l M)
    (hd : ∀ i ∈ l, isElem i.2.1 = true → V8.Areas.areasOut names (E i.1 i.2.1).tree [] (E i.1 i.2.1).data ≠ none) :
    ∃ w' view, Unpacked names s d w l w' ∧ Views s w' view ∧ Listing s w' (l.map (fun i => (i.1, some i.2.1))) := by
  obtain ⟨c, hc⟩ := Org.mapM_ex (codePuts s) (l.filter (fun i => isCode i.2.1)) (by
    intro i hi
    obtain ⟨h1, h2⟩ := List.mem_filter.mp hi
    obtain ⟨m1, m2⟩ := rd.module i h1 h2
    obtain ⟨u, hu, _⟩ := Org.code_writes s i _ m1 m2
    rw [← code_same, Option.map_eq_some_iff] at hu
    obtain ⟨b, hb, _⟩ := hu
    exact ⟨b, hb⟩)
  obtain ⟨e, he⟩ := Org.mapM_ex (Org.elemWrites names s) (l.filter (fun i => isElem i.2.1)) (by
    intro i hi
    obtain ⟨h1, h2⟩ := List.mem_filter.mp hi
    obtain ⟨m1, m2⟩ := rd.form i h1 h2
    have := hd i h1 h2
    unfold Org.elemWrites
    rw [m1]
    cases ho : V8.Areas.areasOut names (E i.1 i.2.1).tree [] (E i.1 i.2.1).data with
    | none => exact absurd ho this
    | some q => exact ⟨_, by simp only [ho, Option.map_some]; rfl⟩)
  have hcode : ((l.filter (fun i => isCode i.2.1)).mapM (codePuts s)).map List.flatten = some c.flatten := by rw [hc]; rfl
  have hclear : ∀ p m, clear s w (s.src ++ p, m) = none := fun p m => if_pos (List.prefix_append _ _)
  obtain ⟨v0, h0, F0, s0, f0, i0⟩ := saves_ex ok false (plainPuts s l) (clear s w) [] []
    (fun p m => ⟨fun h => absurd (hclear p m) h, fun h => by cases h⟩) (fun p m h => absurd (hclear p m) h) (good_plain s l)
  obtain ⟨v, h, F, s1, f1, i1⟩ := saves_ex ok true c.flatten v0 [] F0 f0 i0 (good_code rd out c.flatten hcode)
  have hu : Unpacked names s d w l (puts v e.flatten) :=
    ⟨c.flatten, e.flatten, _, _, v0, h0, v, h, hcode, by rw [tasks, he]; rfl, .refl _, .refl _, s0, s1, rfl⟩
  have hl := laid rd ok out hu
  have hheld : Held s (puts v e.flatten) (l.map (fun i => (i.1, stored d i.2.1))) := by
    intro p m
    rw [List.mem_map]
    constructor
    · intro hm
      obtain ⟨i, hi, h1, h2⟩ := hl.only p m hm
      exact ⟨i, hi, by rw [h1, h2]⟩
    · rintro ⟨i, hi, he⟩
      injection he with h1 h2
      rw [← h1, ← h2]
      exact laid_some hl i hi
  refine ⟨_, fun p => Classical.choose (shows_ex s _ _ hheld p), hu, fun p => Classical.choose_spec (shows_ex s _ _ hheld p), fun p x => ?_⟩
  rw [List.mem_map]
  constructor
  · rintro ⟨i, hi, he⟩
    injection he with h1 h2
    subst h1
    refine ⟨⟨stored d i.2.1, laid_some hl i hi, by rw [stored_removed ok i hi, h2]⟩, ?_⟩
    intro n hn q m
    rw [hn] at h2
    cases h2
    apply Classical.byContradiction
    intro hne
    rw [List.append_assoc] at hne
    obtain ⟨j, hj, j1, _⟩ := hl.only _ m hne
    exact (ok.folders i hi j hj).1 ⟨q, by rw [j1, List.append_assoc]; rfl⟩
  · rintro ⟨⟨m, hm, hx⟩, _⟩
    obtain ⟨i, hi, h1, h2⟩ := hl.only p m hm
    rw [h2, stored_removed ok i hi] at hx
    exact ⟨i, hi, by rw [h1, hx]⟩

/-! ### an older version cannot be built -/

theorem pack_none {names : V → List Text} {s : Sys} {w : World V} {view : Dir → Folder} {d fuel : Nat} : ∀ (ls : List (Dir × Option Text)) (f : Dir × Option Text),
    f ∈ ls → packOne names s w view d fuel f.1 f.2 = none → pack names s w view d fuel ls = none
  | g :: r, f, hf, h => by
    rw [pack]
    rcases List.mem_cons.mp hf with rfl | hf
    · rw [h]
    · cases packOne names s w view d fuel g.1 g.2 with
      | none => rfl
      | some c =>
        simp only
        rw [pack_none r f hf h]
        rfl

/-- **C75, an older version cannot be built.**  After an extraction at version `d` a build at a version before `d` fails, if the product has any file but files of
elements: what the folder held for older versions has been removed. -/
theorem C75_older_fails (names : V → List Text) (s : Sys) (d : Nat) (w w' : World V) (l : List (Item V)) (M : Dir → Text → List Code.Node)
    (E : Dir → Text → V8.Areas.Elems V) (rd : Ready names s w l M E) (ok : Fit s d l) (out : AreasOutside s l M) (h : Unpacked names s d w l w')
    (d' : Nat) (hd : d' < d) (view : Dir → Folder) (hv : Views s w' view) (ls : List (Dir × Option Text)) (hls : Listing s w' ls) (fuel : Nat)
    (i : Item V) (hi : i ∈ l) (he : isElem i.2.1 = false) : pack names s w' view d' fuel ls = none := by
  have hl := laid rd ok out h
  refine pack_none ls (i.1, some i.2.1) ((listed ok hl.stands ls hls _ _).mpr ⟨i, hi, rfl, rfl⟩) ?_
  have hnear : near (view i.1) i.2.1 d' = none := by
    rcases near_spec (view i.1) i.2.1 (ok.dots i hi) (view_clear hl.stands hv i.1 _ (ok.alone i hi)) d' with ⟨v, h1, h2, _⟩ | ⟨_, h2⟩
    · have := (has_version ok hl.stands hv i.1 _ (ok.dots i hi) v h1).1
      omega
    · rw [h2, if_neg]
      intro hm
      obtain ⟨⟨n, c⟩, hp, hn⟩ := List.mem_map.mp hm
      simp only at hn
      subst hn
      cases c with
      | some c =>
        obtain ⟨j, hj, j1, j2⟩ := hl.only i.1 i.2.1 (((hv i.1).1 _).mp ((isFile_iff _ _).mpr ⟨c, hp⟩))
        cases k : isElem j.2.1 with
        | true =>
          unfold stored at j2
          rw [k] at j2
          simp only [if_true] at j2
          rw [← j2, he] at k
          cases k
        | false =>
          rw [stored_plain d _ k] at j2
          have hij := ok.once i hi j hj j1.symm k j2
          rw [← hij] at j2
          exact descentName_ne _ d (by omega) j2.symm
      | none =>
        obtain ⟨q, m, hq⟩ := ((hv i.1).2 _).mp hp
        rw [List.append_assoc] at hq
        obtain ⟨j, hj, j1, _⟩ := hl.only _ _ hq
        exact (ok.folders i hi j hj).1 ⟨q, by rw [j1, List.append_assoc]; rfl⟩
  unfold packOne
  simp only
  rw [hnear]
  rfl

/-! ### the order of the listing -/

theorem code_ext (n : Text) (h : isCode n = true) : ext n = "bsl".toList := by
  unfold isCode at h
  rw [ends_iff] at h
  obtain ⟨t, rfl⟩ := h
  exact ext_base t "bsl".toList (by decide)

theorem elem_ext (n : Text) (h : isElem n = true) : ext n = "json".toList := by
  obtain ⟨t, rfl⟩ := elem_name n h
  exact ext_base _ "json".toList (by decide)

theorem split_length (b x : Text) (hx : '.' ∉ x) : (split '.' (b ++ x)).length = (split '.' b).length := by
  induction b with
  | nil => rw [List.nil_append, split_clean '.' x hx]; rfl
  | cons a t ih =>
    rw [List.cons_append, split, split]
    by_cases h : a = '.'
    · rw [if_pos h, if_pos h, List.length_cons, List.length_cons, ih]
    · rw [if_neg h, if_neg h]
      cases h1 : split '.' (t ++ x) with
      | nil => exact absurd h1 (split_ne _ _)
      | cons p q =>
        cases h2 : split '.' t with
        | nil => exact absurd h2 (split_ne _ _)
        | cons p' q' =>
          rw [h1, h2] at ih
          simpa using ih

theorem bestOf_const (d v : Nat) : ∀ L : List Int, L ≠ [] → (∀ x ∈ L, x = (v : Int)) → bestOf d L = some (v : Int)
  | [], h, _ => absurd rfl h
  | [x], _, h => by rw [h x List.mem_cons_self]; rfl
  | x :: y :: r, _, h => by
    rw [bestOf, bestOf_const d v (y :: r) (by simp) (fun z hz => h z (List.mem_cons_of_mem _ hz)), h x List.mem_cons_self]
    simp only
    rw [if_neg (by omega)]

/-- in a folder that holds only version `d` of a sibling whose name extends `base`, `base.e` is taken to have version `d` -/
theorem near_confused (dir : Folder) (base x e : Text) (he : '.' ∉ e) (hx : '.' ∉ x) (d : Nat) (hd : 1 ≤ d)
    (hdir : ∀ n, isFile dir n = true ↔ n = versionFile (base ++ x) e d) : near dir (base ++ '.' :: e) d = some (versionFile base e d) := by
  have hname : versionFile (base ++ x) e d = (base ++ x ++ '.' :: showNat d) ++ '.' :: e := by
    unfold versionFile; rw [if_neg (by omega)]; simp [List.append_assoc]
  have hsp : split '.' (versionFile (base ++ x) e d) = split '.' (base ++ x) ++ [showNat d, e] := by
    rw [hname, split_base _ _ he, split_base _ _ (showNat_noDot d)]; simp
  have hst : starts (stem (base ++ '.' :: e)) (versionFile (base ++ x) e d) = true := by
    rw [Descent.starts_iff, stem_base _ _ he, hname]
    exact ⟨x ++ '.' :: showNat d ++ '.' :: e, by simp⟩
  have hen : ends (ext (base ++ '.' :: e)) (versionFile (base ++ x) e d) = true := by
    rw [ends_iff, ext_base _ _ he, hname]
    exact ⟨base ++ x ++ '.' :: showNat d ++ ['.'], by simp⟩
  have hne : versionFile (base ++ x) e d ≠ base ++ '.' :: e := by
    intro h
    have h1 := congrArg List.length h
    rw [hname] at h1
    simp at h1; omega
  have hpen : (split '.' (versionFile (base ++ x) e d)).dropLast.getLast?.getD [] = showNat d := by
    rw [hsp, show split '.' (base ++ x) ++ [showNat d, e] = (split '.' (base ++ x) ++ [showNat d]) ++ [e] by simp,
      List.dropLast_concat, List.getLast?_concat]; rfl
  have hl2 : ¬ ((split '.' (versionFile (base ++ x) e d)).length - 1 ≠ (split '.' (base ++ '.' :: e)).length) := by
    rw [hsp, split_base base e he]; simp [split_length base x hx]
  have hcond : (starts (stem (base ++ '.' :: e)) (versionFile (base ++ x) e d) && ends (ext (base ++ '.' :: e)) (versionFile (base ++ x) e d)) = true := by
    rw [hst, hen]; rfl
  have hval : ∀ p ∈ dir, p.2.isSome = true → p.1 = versionFile (base ++ x) e d := by
    intro p hp hs
    obtain ⟨c, hc⟩ := Option.isSome_iff_exists.mp hs
    exact (hdir p.1).mp ((isFile_iff _ _).mpr ⟨c, by rw [← hc]; exact hp⟩)
  have hmem : ∀ v ∈ versionsOf dir (base ++ '.' :: e), v = (d : Int) := by
    intro v hv
    unfold versionsOf at hv
    obtain ⟨p, hp, h⟩ := List.mem_filterMap.mp hv
    cases hs : p.2.isSome with
    | false =>
      simp only [hs, Bool.false_eq_true, if_false] at h
      split at h
      · split at h
        · cases h
        · split at h <;> cases h
      · cases h
    | true =>
      have hp1 := hval p hp hs
      simp only [hs, if_true, hp1, hcond, if_neg hne, if_neg hl2, hpen, parse_showNat] at h
      exact (Option.some.inj h).symm
  have hnil : versionsOf dir (base ++ '.' :: e) ≠ [] := by
    obtain ⟨c, hc⟩ := (isFile_iff _ _).mp ((hdir _).mpr rfl)
    intro hnil
    have : (d : Int) ∈ versionsOf dir (base ++ '.' :: e) := by
      unfold versionsOf
      refine List.mem_filterMap.mpr ⟨_, hc, ?_⟩
      simp only [Option.isSome_some, if_true, hcond, if_neg hne, if_neg hl2, hpen, parse_showNat]
    rw [hnil] at this
    cases this
  unfold near
  rw [bestOf_const d d _ hnil hmem]
  simp only
  rw [if_neg (by omega), stem_base _ _ he, ext_base _ _ he]
  unfold versionFile
  rw [if_neg (by omega)]
  simp [showInt]

/-- a folder that is empty: nothing is found -/
theorem near_empty (dir : Folder) (n : Text) (hn : '.' ∈ n) (d : Nat) (hf : ∀ m, isFile dir m = false) (hd : ∀ m, (m, none) ∉ dir) : near dir n d = none := by
  rcases near_spec dir n hn (fun p hp hs => by
    obtain ⟨c, hc⟩ := Option.isSome_iff_exists.mp hs
    have := hf p.1
    rw [(isFile_iff _ _).mpr ⟨c, by rw [← hc]; exact hp⟩] at this
    cases this) d with ⟨v, ⟨_, h2⟩, _⟩ | ⟨_, h2⟩
  · rw [hf] at h2
    cases h2
  · rw [h2, if_neg]
    intro hm
    obtain ⟨⟨m, c⟩, hp, _⟩ := List.mem_map.mp hm
    cases c with
    | none => exact hd m hp
    | some c =>
      have := hf m
      rw [(isFile_iff _ _).mpr ⟨c, hp⟩] at this
      cases this

/-- a file that is neither a module nor elements -/
theorem kinds (base e : Text) (he : '.' ∉ e) (hb : e ≠ "bsl".toList) (hj : e ≠ "json".toList) :
    isCode (base ++ '.' :: e) = false ∧ isElem (base ++ '.' :: e) = false := by
  constructor
  · cases h : isCode (base ++ '.' :: e) with
    | false => rfl
    | true =>
      have := code_ext _ h
      rw [ext_base _ _ he] at this
      exact absurd this hb
  · cases h : isElem (base ++ '.' :: e) with
    | false => rfl
    | true =>
      have := elem_ext _ h
      rw [ext_base _ _ he] at this
      exact absurd this hj

theorem clear_none (s : Sys) (w : World V) (p : Dir) (m : Text) : clear s w (s.src ++ p, m) = none := if_pos (List.prefix_append _ _)

theorem shows_clear (s : Sys) (w : World V) (p : Dir) (dir : Folder) (h : Shows (clear s w) (s.src ++ p) dir) :
    (∀ m, isFile dir m = false) ∧ ∀ m, (m, none) ∉ dir := by
  constructor
  · intro m
    cases hf : isFile dir m with
    | false => rfl
    | true => exact absurd (clear_none s w p m) ((h.1 m).mp hf)
  · intro m hm
    obtain ⟨q, n, hq⟩ := (h.2 m).mp hm
    rw [List.append_assoc, clear_none] at hq
    exact hq rfl

/-- the first file to be saved is saved -/
theorem first_saved (s : Sys) (w : World V) (d : Nat) (p : Dir) (n : Text) (hn : '.' ∈ n) (dir : Folder) (h : Shows (clear s w) (s.src ++ p) dir)
    (c : Content V) (cmp : Content V → Option Bool) :
    saveOne s d (clear s w) (clear s w) dir ⟨(s.src ++ p, n), c, cmp⟩ = some (put (clear s w) ((s.src ++ p, descentName n d), c)) := by
  obtain ⟨h1, h2⟩ := shows_clear s w p dir h
  unfold saveOne saveName
  simp only
  rw [if_pos (inside_prefix s p), if_neg (by rw [h1]; exact Bool.false_ne_true), near_empty dir n hn d h1 h2]
  rfl

theorem second_files (s : Sys) (w : World V) (p : Dir) (n : Text) (c : Content V) (dir : Folder) (h : Shows (put (clear s w) ((s.src ++ p, n), c)) (s.src ++ p) dir) :
    ∀ m, isFile dir m = true ↔ m = n := by
  intro m
  rw [h.1 m]
  show (if (s.src ++ p, m) = (s.src ++ p, n) then some c else clear s w (s.src ++ p, m)) ≠ none ↔ _
  by_cases hm : m = n
  · rw [if_pos (by rw [hm])]
    exact ⟨fun _ => hm, fun _ h => by cases h⟩
  · rw [if_neg (fun he => hm (Org.file_inj he).2), clear_none]
    exact ⟨fun h => absurd rfl h, fun h => absurd h hm⟩

/-- **C75 is false of names that extend each other: whether a product can be extracted depends on the order in which its files are listed.**  Take two files
`base.e` and `basex.e` in one folder.  Listed in this order they are extracted; in the other order the extraction fails, whatever the version: the second file
is compared with a file `base.d.e` that does not exist. -/
theorem C75_listing_order_neg (names : V → List Text) (s : Sys) (d : Nat) (hd : 1 ≤ d) (w : World V) (p : Dir) (base x e : Text) (c1 c2 : Content V)
    (he : '.' ∉ e) (hx : '.' ∉ x) (hxne : x ≠ []) (hb : e ≠ "bsl".toList) (hj : e ≠ "json".toList) :
    (∃ w', Unpacked names s d w [(p, base ++ '.' :: e, c1), (p, base ++ x ++ '.' :: e, c2)] w') ∧
    ∀ w', ¬ Unpacked names s d w [(p, base ++ x ++ '.' :: e, c2), (p, base ++ '.' :: e, c1)] w' := by
  obtain ⟨k1, k2⟩ := kinds base e he hb hj
  obtain ⟨k3, k4⟩ := kinds (base ++ x) e he hb hj
  have hdiff : versionFile base e d ≠ versionFile (base ++ x) e d := by
    intro h
    have h1 := congrArg List.length h
    unfold versionFile at h1
    rw [if_neg (by omega), if_neg (by omega)] at h1
    simp at h1
    exact hxne h1
  constructor
  · -- base first
    have hplain : plainPuts s [(p, base ++ '.' :: e, c1), (p, base ++ x ++ '.' :: e, c2)] =
        [⟨(s.src ++ p, base ++ '.' :: e), c1, sameBytes c1⟩, ⟨(s.src ++ p, base ++ x ++ '.' :: e), c2, sameBytes c2⟩] := by
      unfold plainPuts
      simp only [List.filter_cons, k1, k2, k3, k4, Bool.not_false, Bool.and_self, if_true, List.filter_nil, List.map_cons, List.map_nil]
    obtain ⟨dir1, hdir1⟩ := shows_ex s (clear s w) [] (fun p m => ⟨fun h => absurd (clear_none s w p m) h, fun h => by cases h⟩) p
    let w1 : World V := put (clear s w) ((s.src ++ p, versionFile base e d), c1)
    have hheld : Held s w1 [(p, versionFile base e d)] := by
      intro q m
      show (if (s.src ++ q, m) = (s.src ++ p, versionFile base e d) then some c1 else clear s w (s.src ++ q, m)) ≠ none ↔ _
      rw [List.mem_singleton]
      by_cases hq : (s.src ++ q, m) = (s.src ++ p, versionFile base e d)
      · rw [if_pos hq]
        obtain ⟨g1, g2⟩ := Org.file_inj hq
        exact ⟨fun _ => by rw [g1, g2], fun _ h => by cases h⟩
      · rw [if_neg hq, clear_none]
        refine ⟨fun h => absurd rfl h, fun h => ?_⟩
        injection h with g1 g2
        exact absurd (by rw [g1, g2]) hq
    obtain ⟨dir2, hdir2⟩ := shows_ex s w1 _ hheld p
    have hfiles := second_files s w p _ c1 dir2 hdir2
    have hpre : ∀ y ∈ dir2, y.2.isSome = true → ¬ stem (base ++ x ++ '.' :: e) <+: y.1 := by
      intro y hy hs hpre
      obtain ⟨c, hc⟩ := Option.isSome_iff_exists.mp hs
      have hy1 := (hfiles y.1).mp ((isFile_iff _ _).mpr ⟨c, by rw [← hc]; exact hy⟩)
      rw [hy1, stem_base _ _ he] at hpre
      unfold versionFile at hpre
      rw [if_neg (by omega)] at hpre
      have h2 := (List.prefix_append_right_inj base).mp hpre
      cases x with
      | nil => exact hxne rfl
      | cons a t =>
        obtain ⟨r, hr⟩ := h2
        injection hr with h3 _
        exact hx (by rw [h3]; exact List.mem_cons_self)
    have hnear : near dir2 (base ++ x ++ '.' :: e) d = none := by
      rcases near_spec dir2 (base ++ x ++ '.' :: e) (dot_mem _ _) (fun y hy hs _ hpr => absurd hpr (hpre y hy hs)) d with ⟨v, ⟨g1, g2⟩, _⟩ | ⟨_, g2⟩
      · rw [descentName_base _ _ he] at g2
        obtain ⟨c, hc⟩ := (isFile_iff _ _).mp g2
        refine absurd ?_ (hpre _ hc rfl)
        rw [stem_base _ _ he]
        unfold versionFile
        rw [if_neg (by omega)]
        exact List.prefix_append _ _
      · rw [g2, if_neg]
        intro hm
        obtain ⟨⟨m, c⟩, hp, hm⟩ := List.mem_map.mp hm
        simp only at hm
        subst hm
        cases c with
        | some c =>
          refine absurd ?_ (hpre _ hp rfl)
          rw [stem_base _ _ he]
          exact List.prefix_append _ _
        | none =>
          obtain ⟨q, m, hq⟩ := (hdir2.2 _).mp hp
          rw [List.append_assoc] at hq
          have := (hheld _ _).mp hq
          rw [List.mem_singleton] at this
          injection this with g1 _
          have := congrArg List.length g1
          simp at this
    have hstep2 : saveOne s d w1 w1 dir2 ⟨(s.src ++ p, base ++ x ++ '.' :: e), c2, sameBytes c2⟩ =
        some (put w1 ((s.src ++ p, versionFile (base ++ x) e d), c2)) := by
      unfold saveOne saveName
      simp only
      rw [if_pos (inside_prefix s p), hnear, descentName_base _ _ he]
      by_cases hf : isFile dir2 (versionFile (base ++ x) e d) = true
      · rw [if_pos hf]
        rfl
      · rw [if_neg hf]
        rfl
    have hstep1 := first_saved s w d p (base ++ '.' :: e) (dot_mem _ _) dir1 hdir1 c1 (sameBytes c1)
    rw [descentName_base _ _ he] at hstep1
    refine ⟨put w1 ((s.src ++ p, versionFile (base ++ x) e d), c2), [], [], [], [], put w1 ((s.src ++ p, versionFile (base ++ x) e d), c2), [w1, clear s w],
      put w1 ((s.src ++ p, versionFile (base ++ x) e d), c2), [], ?_, ?_, .refl _, .refl _, ?_, .done _, rfl⟩
    · simp only [List.filter_cons, k1, k3, Bool.false_eq_true, if_false, List.filter_nil]
      rfl
    · simp only [List.filter_cons, k2, k4, Bool.false_eq_true, if_false, List.filter_nil]
      rfl
    · rw [hplain]
      exact .step _ _ _ _ _ dir1 _ _ List.mem_cons_self (fun _ => hdir1) hstep1 (.step _ _ _ _ _ dir2 _ _ List.mem_cons_self (fun _ => hdir2) hstep2 (.done _))
  · rintro w' ⟨code, elem, code', elem', v0, h0, v, hh, _, _, _, _, hs, _⟩
    have hplain : plainPuts s [(p, base ++ x ++ '.' :: e, c2), (p, base ++ '.' :: e, c1)] =
        [⟨(s.src ++ p, base ++ x ++ '.' :: e), c2, sameBytes c2⟩, ⟨(s.src ++ p, base ++ '.' :: e), c1, sameBytes c1⟩] := by
      unfold plainPuts
      simp only [List.filter_cons, k1, k2, k3, k4, Bool.not_false, Bool.and_self, if_true, List.filter_nil, List.map_cons, List.map_nil]
    rw [hplain] at hs
    cases hs with
    | step _ _ _ _ view dir w1 _ g1 g2 g3 g4 =>
      have hview : view = clear s w := by
        rcases List.mem_cons.mp g1 with h | h
        · exact h
        · cases h
      subst hview
      rw [first_saved s w d p _ (dot_mem _ _) dir (g2 (inside_prefix s p)) c2 (sameBytes c2), descentName_base _ _ he] at g3
      cases g3
      cases g4 with
      | step _ _ _ _ view dir' w2 _ f1 f2 f3 f4 =>
        have hview : view = put (clear s w) ((s.src ++ p, versionFile (base ++ x) e d), c2) := by
          rcases List.mem_cons.mp f1 with h | h
          · exact h
          · cases h
        subst hview
        have hfiles := second_files s w p _ c2 dir' (f2 (inside_prefix s p))
        have hnear := near_confused dir' base x e he hx d hd hfiles
        unfold saveOne saveName at f3
        simp only at f3
        rw [if_pos (inside_prefix s p), descentName_base _ _ he, if_neg (fun h => hdiff ((hfiles _).mp h)), hnear] at f3
        have hno : put (clear s w) ((s.src ++ p, versionFile (base ++ x) e d), c2) (s.src ++ p, versionFile base e d) = none := by
          show (if (s.src ++ p, versionFile base e d) = (s.src ++ p, versionFile (base ++ x) e d) then some c2 else clear s w (s.src ++ p, versionFile base e d)) = none
          rw [if_neg (fun h => hdiff (Org.file_inj h).2), clear_none]
        simp only [hno] at f3
        cases f3

/-! ### sources without versions -/

theorem pack_named {names : V → List Text} {s : Sys} {w : World V} {view : Dir → Folder} {d fuel : Nat} : ∀ {ls : List (Dir × Option Text)} {b},
    pack names s w view d fuel ls = some b → ∀ f, b f ≠ none → (f.1, some f.2) ∈ ls
  | [], b, h, f, hf => by
    cases h
    exact absurd rfl hf
  | g :: r, b, h, f, hf => by
    rw [pack] at h
    cases hp : packOne names s w view d fuel g.1 g.2 with
    | none => rw [hp] at h; cases h
    | some c =>
      rw [hp] at h
      simp only at h
      rw [Option.map_eq_some_iff] at h
      obtain ⟨b', h1, rfl⟩ := h
      simp only at hf
      by_cases hb : b' f = none
      · rw [hb, Option.none_or] at hf
        by_cases hg : g.2 = some f.2 ∧ g.1 = f.1
        · rw [← hg.1, ← hg.2]
          exact List.mem_cons_self
        · rw [if_neg hg] at hf
          exact absurd rfl hf
      · exact List.mem_cons_of_mem _ (pack_named h1 f hb)

/-- **C75 is false of sources laid out without a version that hold a file whose name ends in a number before the extension.**  (A configuration has one: the
module `Configuration.802.bsl`.)  Built with any version, the product has no file of that name: it is taken for version 802 of `Configuration.bsl`. -/
theorem C75_unversioned_sources_neg (names : V → List Text) (s : Sys) (w : World V) (p : Dir) (base e : Text) (he : '.' ∉ e) (v : Nat) (hv : 1 ≤ v)
    (hno : ∀ k : Int, w (s.src ++ p, base ++ '.' :: (showNat v ++ '.' :: (showInt k ++ '.' :: e))) = none)
    (view : Dir → Folder) (ls : List (Dir × Option Text)) (hls : Listing s w ls) (d fuel : Nat) (b) (hb : pack names s w view d fuel ls = some b) : b (p, versionFile base e v) = none := by
  apply Classical.byContradiction
  intro hne
  obtain ⟨⟨m, hm, hr⟩, _⟩ := (hls _ _).mp (pack_named hb _ hne)
  simp only at hm hr
  have hname : versionFile base e v = (base ++ '.' :: showNat v) ++ '.' :: e := by
    unfold versionFile; rw [if_neg (by omega)]; simp [List.append_assoc]
  have hsp : split '.' (versionFile base e v) = split '.' base ++ [showNat v, e] := by
    rw [hname, split_base _ _ he, split_base _ _ (showNat_noDot v)]; simp
  have hlen : 3 ≤ (split '.' (versionFile base e v)).length := by
    rw [hsp, List.length_append]
    have := List.length_pos_iff.mpr (split_ne '.' base)
    simp only [List.length_cons, List.length_nil]
    omega
  have hpen : (split '.' (versionFile base e v)).dropLast.getLast?.getD [] = showNat v := by
    rw [hsp, show split '.' base ++ [showNat v, e] = (split '.' base ++ [showNat v]) ++ [e] by simp,
      List.dropLast_concat, List.getLast?_concat]; rfl
  unfold removeDescent at hr
  simp only at hr
  by_cases h3 : (split '.' m).length < 3
  · rw [if_pos h3] at hr
    have := Option.some.inj hr
    rw [this] at h3
    omega
  rw [if_neg h3] at hr
  cases hp : parseInt ((split '.' m).dropLast.getLast?.getD []) with
  | none =>
    rw [hp] at hr
    simp only at hr
    have := Option.some.inj hr
    rw [this, hpen, parse_showNat] at hp
    cases hp
  | some k =>
    rw [hp] at hr
    simp only at hr
    by_cases hk : showInt k = (split '.' m).dropLast.getLast?.getD []
    · rw [if_pos hk] at hr
      have hj := Option.some.inj hr
      -- m is base.v.k.e
      have hm1 : (split '.' m).dropLast ≠ [] := by
        intro h
        have := congrArg List.length h
        rw [List.length_dropLast] at this
        simp only [List.length_nil] at this
        omega
      have hm2 : (split '.' m).dropLast = (split '.' m).dropLast.dropLast ++ [showInt k] := by
        rw [hk]
        conv => lhs; rw [← List.dropLast_append_getLast hm1]
        rw [List.getLast?_eq_some_getLast hm1]
        rfl
      have hall : split '.' m = (split '.' m).dropLast.dropLast ++ [showInt k, ext m] := by
        rw [show (split '.' m).dropLast.dropLast ++ [showInt k, ext m] = ((split '.' m).dropLast.dropLast ++ [showInt k]) ++ [ext m] by simp, ← hm2]
        exact parts_eq m
      have hclean : ∀ t ∈ (split '.' m).dropLast.dropLast ++ [ext m], '.' ∉ t := by
        intro t ht
        rcases List.mem_append.mp ht with ht | ht
        · exact split_mem '.' m t (List.dropLast_subset _ (List.dropLast_subset _ ht))
        · rw [List.mem_singleton] at ht
          rw [ht]
          exact ext_noDot m
      have hsj : (split '.' m).dropLast.dropLast ++ [ext m] = split '.' base ++ [showNat v, e] := by
        rw [← hsp, ← hj, split_join '.' _ (by simp) hclean]
      have hparts : (split '.' m).dropLast.dropLast = split '.' base ++ [showNat v] ∧ ext m = e := by
        have h5 : (split '.' m).dropLast.dropLast ++ [ext m] = (split '.' base ++ [showNat v]) ++ [e] := by rw [hsj]; simp
        have h6 := List.append_inj' h5 rfl
        exact ⟨h6.1, by injection h6.2⟩
      have hmeq : m = base ++ '.' :: (showNat v ++ '.' :: (showInt k ++ '.' :: e)) := by
        rw [← join_split '.' m, hall, hparts.1, hparts.2]
        rw [show split '.' base ++ [showNat v] ++ [showInt k, e] = split '.' base ++ [showNat v, showInt k, e] by simp,
          join_append '.' _ _ (split_ne _ _) (by simp), join_split]
        rfl
      have h := hno k
      rw [← hmeq] at h
      exact hm h
    · rw [if_neg hk] at hr
      cases hr

/-! ### files without an extension -/

theorem descentName_dot (n : Text) (d : Nat) (hd : 1 ≤ d) : '.' ∈ descentName n d := by
  unfold descentName
  rw [if_neg (by omega)]
  cases h : (split '.' n).dropLast with
  | nil => exact List.mem_append_right _ List.mem_cons_self
  | cons a r =>
    rw [join_append '.' _ _ (by simp) (by simp)]
    exact List.mem_append_right _ List.mem_cons_self

theorem ends_dot {e n : Text} (h : ends e n = true) (he : '.' ∈ e) : '.' ∈ n := by
  obtain ⟨t, rfl⟩ := (Descent.ends_iff _ _).mp h
  exact List.mem_append_right _ he

theorem code_dot {n : Text} (h : isCode n = true) : '.' ∈ n := ends_dot h (by decide)

theorem elem_dot {n : Text} (h : isElem n = true) : '.' ∈ n := by
  unfold isElem at h
  rw [Bool.and_eq_true] at h
  exact ends_dot h.2 (by decide)

/-- no file of the sources is without a dot -/
def AllDots (s : Sys) (w : World V) : Prop := ∀ p n, '.' ∉ n → w (s.src ++ p, n) = none

theorem put_dots {s : Sys} {w : World V} (h : AllDots s w) (f : Org.File) (hf : s.src <+: f.1 → '.' ∈ f.2) (c : Content V) : AllDots s (put w (f, c)) := by
  intro p n hn
  show (if (s.src ++ p, n) = f then some c else w (s.src ++ p, n)) = none
  rw [if_neg, h p n hn]
  intro e
  subst e
  exact hn (hf (List.prefix_append _ _))

theorem saves_dots {s : Sys} {d : Nat} (hd : 1 ≤ d) {pool : Bool} {h : List (World V)} {l : List (Put V)} {h' : List (World V)} (hs : Saves s d pool h l h') :
    (∀ v ∈ h, AllDots s v) → ∀ v ∈ h', AllDots s v := by
  induction hs with
  | done => exact fun h => h
  | step w h x l view dir w' h' _ _ hsave _ ih =>
    intro ha
    apply ih
    intro v hv
    rcases List.mem_cons.mp hv with rfl | hv
    · have hw := ha w List.mem_cons_self
      unfold saveOne at hsave
      by_cases hin : inside s x.file.1 = true
      · rw [if_pos hin, Option.map_eq_some_iff] at hsave
        obtain ⟨r, hr, rfl⟩ := hsave
        cases r with
        | none => exact hw
        | some n =>
          have hname : n = descentName x.file.2 d := by
            unfold saveName at hr
            by_cases hf : isFile dir (descentName x.file.2 d) = true
            · rw [if_pos hf] at hr
              exact (Option.some.inj (Option.some.inj hr)).symm
            rw [if_neg hf] at hr
            cases hnear : near dir x.file.2 d with
            | none =>
              rw [hnear] at hr
              exact (Option.some.inj (Option.some.inj hr)).symm
            | some m =>
              rw [hnear] at hr
              simp only at hr
              cases hold : view (x.file.1, m) with
              | none => rw [hold] at hr; cases hr
              | some old =>
                rw [hold] at hr
                simp only at hr
                rw [Option.map_eq_some_iff] at hr
                obtain ⟨b, _, hb⟩ := hr
                cases b with
                | true => cases hb
                | false => exact (Option.some.inj hb).symm
          rw [hname]
          exact put_dots hw _ (fun _ => descentName_dot _ _ hd) _
      · rw [if_neg hin] at hsave
        rw [← Option.some.inj hsave]
        refine put_dots hw _ (fun hp => absurd ?_ hin) _
        obtain ⟨q, hq⟩ := hp
        rw [← hq]
        exact inside_prefix s q
    · exact ha v hv

theorem puts_dots {s : Sys} : ∀ (l : List (Write V)) (w : World V), AllDots s w → (∀ x ∈ l, '.' ∈ x.1.2) → AllDots s (puts w l)
  | [], _, h, _ => h
  | x :: l, w, h, hx => puts_dots l (put w x) (put_dots h x.1 (fun _ => hx x List.mem_cons_self) x.2) (fun y hy => hx y (List.mem_cons_of_mem _ hy))

theorem removeDescent_dot (m n : Text) (h : removeDescent m = some n) (hn : '.' ∉ n) : m = n := by
  unfold removeDescent at h
  simp only at h
  by_cases h3 : (split '.' m).length < 3
  · rw [if_pos h3] at h
    exact Option.some.inj h
  rw [if_neg h3] at h
  cases hp : parseInt ((split '.' m).dropLast.getLast?.getD []) with
  | none =>
    rw [hp] at h
    exact Option.some.inj h
  | some k =>
    rw [hp] at h
    simp only at h
    by_cases hk : showInt k = (split '.' m).dropLast.getLast?.getD []
    · rw [if_pos hk] at h
      exfalso
      apply hn
      rw [← Option.some.inj h, join_append '.' _ _ (by
        intro h0
        have := congrArg List.length h0
        rw [List.length_dropLast, List.length_dropLast, List.length_nil] at this
        omega) (by simp)]
      exact List.mem_append_right _ List.mem_cons_self
    · rw [if_neg hk] at h
      cases h

/-- **C75 is false of files without an extension.**  (A configuration with a splash screen has one: `Заставка`.)  Whatever is extracted with a version, no file of
the sources has a name without a dot, and a build of these sources gives no such file. -/
theorem C75_no_extension_neg (names : V → List Text) (s : Sys) (d : Nat) (hd : 1 ≤ d) (w w' : World V) (l : List (Item V)) (h : Unpacked names s d w l w')
    (p : Dir) (n : Text) (hn : '.' ∉ n) : w' (s.src ++ p, n) = none ∧
      ∀ (view : Dir → Folder) (ls : List (Dir × Option Text)) (d' fuel : Nat) (b : Dir × Text → Option (Content V)), Listing s w' ls →
        pack names s w' view d' fuel ls = some b → b (p, n) = none := by
  have hw' : AllDots s w' := by
    obtain ⟨code, elem, code', elem', v0, h0, v, hh, _, he, _, pe, h1, h2, rfl⟩ := h
    have hclear : ∀ v ∈ [clear s w], AllDots s v := by
      intro v hv
      rw [List.mem_singleton] at hv
      rw [hv]
      exact fun p n _ => clear_none s w p n
    have hv0 := saves_dots hd h1 hclear v0 List.mem_cons_self
    have hv := saves_dots hd h2 (fun u hu => by rw [List.mem_singleton] at hu; rw [hu]; exact hv0) v List.mem_cons_self
    refine puts_dots elem' v hv (fun x hx => ?_)
    have hx := pe.mem_iff.mp hx
    unfold tasks at he
    rw [Option.map_eq_some_iff] at he
    obtain ⟨bs, hbs, rfl⟩ := he
    obtain ⟨b, hb, hxb⟩ := List.mem_flatten.mp hx
    obtain ⟨i, hi, hw⟩ := (V8.Index.mapM_mem _ _ _ hbs).2 b hb
    obtain ⟨_, hie⟩ := List.mem_filter.mp hi
    unfold Org.elemWrites at hw
    cases hc : i.2.2 with
    | bytes _ => rw [hc] at hw; cases hw
    | elems e =>
      rw [hc] at hw
      simp only at hw
      rw [Option.map_eq_some_iff] at hw
      obtain ⟨q, _, rfl⟩ := hw
      obtain ⟨a, _, rfl⟩ := List.mem_map.mp hxb
      simp only
      by_cases ha : a.1 = V8.Areas.rootWord
      · rw [if_pos ha]
        exact elem_dot hie
      · rw [if_neg ha]
        exact List.mem_append_right _ (by decide)
  refine ⟨hw' p n hn, fun view ls d' fuel b hls hb => ?_⟩
  apply Classical.byContradiction
  intro hne
  obtain ⟨⟨m, hm, hr⟩, _⟩ := (hls _ _).mp (pack_named hb _ hne)
  have := removeDescent_dot m n hr hn
  rw [this] at hm
  exact hm (hw' p n hn)

end V8.Versions
