import Verif.Top
/-
Property theorems C73 about `extract` and `build` as programs on a file system (Verif/Top.lean).
-/
namespace V8.Top
open V8.Str

/-! ## Steps -/

theorem writes_clear (d : Place) : Writes (Under d) (clearDir d) := by
  intro fs p h
  show rmtree d fs p = fs p
  unfold rmtree
  rw [if_neg (fun hc => h hc.1)]

theorem writes_mono {R S : Place → Prop} {s : Step} (h : Writes R s) (hs : ∀ p, R p → S p) : Writes S s :=
  fun fs p hp => h fs p (fun hr => hp (hs p hr))

theorem writes_then {R : Place → Prop} {a b : Step} (ha : Writes R a) (hb : Writes R b) : Writes R (andThen a b) := by
  intro fs p hp
  unfold andThen
  have h1 := ha fs p hp
  cases h : a fs with
  | mk gs ok =>
    rw [h] at h1
    cases ok with
    | true => simp only; rw [hb gs p hp]; exact h1
    | false => exact h1

theorem writes_when {R : Place → Prop} {c : Bool} {s : Step} (h : Writes R s) : Writes R (when c s) := by
  intro fs p hp
  unfold when
  cases c with
  | true => exact h fs p hp
  | false => rfl

theorem writes_index {R : Place → Prop} {ci : CheckIndex} {s : Step} (h : Writes R s) : Writes R (withIndex ci s) := by
  intro fs p hp
  unfold withIndex
  cases ci fs with
  | none => rfl
  | some o =>
    cases o with
    | none => exact h fs p hp
    | some n =>
      cases n with
      | zero => rfl
      | succ n => exact h fs p hp

theorem under_stage {t p : Place} {n : Text} (h : Under (stage t n) p) : Under t p :=
  List.IsPrefix.trans (List.prefix_append t [n]) h

theorem stage_ne {t : Place} {n : Text} : stage t n ≠ t := by
  intro h
  have := congrArg List.length h
  simp [stage] at this

theorem writes_cleanUp (a : Args) : Writes (Under a.tempDir) (cleanUp a) := by
  apply writes_when
  intro fs p h
  show rmtree a.tempDir fs p = fs p
  unfold rmtree
  rw [if_neg (fun hc => h hc.1)]

theorem writes_product (st : BuildStages) (d product : Place) : Writes (· = product) (writeProduct st d product) := by
  intro fs p h
  unfold writeProduct
  cases canMake product.dropLast fs with
  | false => rfl
  | true =>
    simp only [if_true]
    cases st.contents d fs with
    | none => rfl
    | some r =>
      obtain ⟨b, ok⟩ := r
      show put product b fs p = fs p
      unfold put
      rw [if_neg h]

/-! ## What is touched -/

/-- **C73 (build touches nothing else).**  Whatever happens in `build` - success, an exception in any stage, an index of any
kind - only the temporary folder and the product change. -/
theorem C73_build_touches (a : Args) (ci : CheckIndex) (st : BuildStages) (h : st.Ok) (fs : Fs) (p : Place)
    (h1 : ¬ Under a.tempDir p) (h2 : p ≠ a.product) : (build a ci st fs).1 p = fs p := by
  have hw : Writes (fun p => Under a.tempDir p ∨ p = a.product) (build a ci st) := by
    unfold build
    apply writes_index
    unfold buildBody
    exact writes_then (writes_mono (writes_clear _) (fun _ h => .inl h)) <|
      writes_then (writes_mono (h.pack _ _) (fun _ h => .inl (under_stage h))) <|
      writes_then (writes_mono (h.encode _ _) (fun _ h => .inl (under_stage h))) <|
      writes_then (writes_mono (h.compress _ _) (fun _ h => .inl (under_stage h))) <|
      writes_then (writes_mono (writes_product _ _ _) (fun _ h => .inr h)) <|
      writes_mono (writes_cleanUp _) (fun _ h => .inl h)
  exact hw fs p (fun hc => hc.elim h1 h2)

/-- **C73 (build keeps the sources).**  If neither the folder of sources nor the temporary folder lies in the other and the
product lies outside the sources, then every source file is as it was, also after a failure. -/
theorem C73_build_keeps_sources (a : Args) (ci : CheckIndex) (st : BuildStages) (h : st.Ok) (fs : Fs)
    (h1 : ¬ Under a.tempDir a.src) (h2 : ¬ Under a.src a.tempDir) (h3 : ¬ Under a.src a.product) (p : Place)
    (hp : Under a.src p) : (build a ci st fs).1 p = fs p := by
  apply C73_build_touches a ci st h fs p
  · intro hc
    rcases List.prefix_or_prefix_of_prefix hc hp with hx | hx
    · exact h1 hx
    · exact h2 hx
  · intro hc
    exact h3 (hc ▸ hp)

/-- **C73 (extract touches nothing else).**  Only the temporary folder, the folder of sources and the common folders (`R`)
change, whatever happens; in particular a product outside of them stays. -/
theorem C73_extract_touches (a : Args) (ci : CheckIndex) (st : ExtractStages) (R : Place → Prop) (h : st.Ok R) (fs : Fs) (p : Place)
    (h1 : ¬ Under a.tempDir p) (h2 : ¬ Under a.src p) (h3 : ¬ R p) : (extract a ci st fs).1 p = fs p := by
  have hw : Writes (fun p => Under a.tempDir p ∨ Under a.src p ∨ R p) (extract a ci st) := by
    unfold extract
    apply writes_index
    unfold extractBody
    exact writes_then (writes_when (writes_mono (writes_clear _) (fun _ h => .inr (.inl h)))) <|
      writes_then (writes_mono (writes_clear _) (fun _ h => .inl h)) <|
      writes_then (writes_mono (h.container _ _) (fun _ h => .inl (under_stage h))) <|
      writes_then (writes_mono (h.decompress _ _) (fun _ h => .inl (under_stage h))) <|
      writes_then (writes_mono (h.decode _ _) (fun _ h => .inl (under_stage h))) <|
      writes_then (writes_mono (h.unpack _ _) (fun _ h => .inr h)) <|
      writes_mono (writes_cleanUp _) (fun _ h => .inl h)
  exact hw fs p (fun hc => hc.elim h1 (fun hc => hc.elim h2 h3))

/-! ## The index comes first -/

/-- **C73 (unreadable index).**  An index that cannot be loaded stops both commands before anything changes. -/
theorem C73_bad_index (a : Args) (ci : CheckIndex) (st : ExtractStages) (sb : BuildStages) (fs : Fs) (h : ci fs = none) :
    extract a ci st fs = (fs, false) ∧ build a ci sb fs = (fs, false) := by
  simp only [extract, build, withIndex, h, and_self]

/-- **C73 is false of the code: success without work.**  With an index that has no entries both commands return normally and
have done nothing: there is no product, there are no sources. -/
theorem C73_empty_index_neg (a : Args) (ci : CheckIndex) (st : ExtractStages) (sb : BuildStages) (fs : Fs) (h : ci fs = some (some 0)) :
    extract a ci st fs = (fs, true) ∧ build a ci sb fs = (fs, true) := by
  simp only [extract, build, withIndex, h, and_self]

/-! ## What is lost -/

/-- a step that writes elsewhere keeps a place empty -/
theorem andThen_split (a b : Step) (fs : Fs) :
    (andThen a b fs = (a fs) ∧ (a fs).2 = false) ∨ ((a fs).2 = true ∧ andThen a b fs = b (a fs).1) := by
  unfold andThen
  cases h : a fs with
  | mk gs ok =>
    cases ok with
    | true => exact .inr ⟨rfl, rfl⟩
    | false => exact .inl ⟨rfl, rfl⟩

theorem rmtree_under (d p : Place) (fs : Fs) (h : Under d p) (hne : p ≠ d) : rmtree d fs p = none := by
  unfold rmtree; rw [if_pos ⟨h, hne⟩]

/-- the body behind an index that has entries or was not given -/
theorem withIndex_body {ci : CheckIndex} {fs : Fs} (h : ∃ o, ci fs = some o ∧ o ≠ some 0) (s : Step) : withIndex ci s fs = s fs := by
  obtain ⟨o, h1, h2⟩ := h
  unfold withIndex
  rw [h1]
  cases o with
  | none => rfl
  | some n =>
    cases n with
    | zero => exact absurd rfl h2
    | succ n => rfl

/-- **C73 is false of the code: the temporary folder is emptied.**  Whatever else is in the folder given as `temp_dir`, the
sources included, is deleted before the first stage of a build runs; the sources are not even read. -/
theorem C73_build_empties_temp_neg (a : Args) (ci : CheckIndex) (st : BuildStages) (h : st.Ok) (fs : Fs)
    (hi : ∃ o, ci fs = some o ∧ o ≠ some 0) (p : Place) (hp : Under a.tempDir p) (hne : p ≠ a.tempDir) (h1 : p ≠ a.product)
    (h2 : ∀ n, ¬ Under (stage a.tempDir n) p ∨ n ∉ ["encode_stage_0".toList, "encode_stage_1".toList, "encode_stage_3".toList]) :
    (build a ci st fs).1 p = none := by
  unfold build
  rw [withIndex_body hi]
  unfold buildBody
  have hst : ∀ n ∈ ["encode_stage_0".toList, "encode_stage_1".toList, "encode_stage_3".toList], ¬ Under (stage a.tempDir n) p := by
    intro n hn
    rcases h2 n with h | h
    · exact h
    · exact absurd hn h
  have keep : ∀ (s : Step) (gs : Fs), Writes (fun q => Under (stage a.tempDir "encode_stage_0".toList) q ∨
      Under (stage a.tempDir "encode_stage_1".toList) q ∨ Under (stage a.tempDir "encode_stage_3".toList) q ∨ q = a.product) s →
      gs p = none → (s gs).1 p = none := by
    intro s gs hw hg
    rw [hw gs p, hg]
    rintro (hc | hc | hc | hc)
    · exact hst _ (by simp) hc
    · exact hst _ (by simp) hc
    · exact hst _ (by simp) hc
    · exact h1 hc
  have hc : ∀ gs : Fs, gs p = none → (cleanUp a gs).1 p = none := by
    intro gs hg
    unfold cleanUp when
    cases a.temp.isNone with
    | false => exact hg
    | true => exact rmtree_under _ _ _ hp hne
  have step : ∀ (s r : Step) (gs : Fs), (∀ gs : Fs, gs p = none → (s gs).1 p = none) → (∀ gs : Fs, gs p = none → (r gs).1 p = none) →
      gs p = none → (andThen s r gs).1 p = none := by
    intro s r gs hs hr hg
    rcases andThen_split s r gs with ⟨h, _⟩ | ⟨_, h⟩
    · rw [h]; exact hs gs hg
    · rw [h]; exact hr _ (hs gs hg)
  rcases andThen_split (clearDir a.tempDir) _ fs with ⟨h, _⟩ | ⟨_, hx⟩
  · rw [h]; exact rmtree_under _ _ _ hp hne
  · rw [hx]
    refine step _ _ _ (fun gs hg => keep _ gs (writes_mono (h.pack _ _) (fun _ h => .inr (.inr (.inl h)))) hg) ?_ (rmtree_under _ _ _ hp hne)
    intro gs hg
    refine step _ _ _ (fun gs hg => keep _ gs (writes_mono (h.encode _ _) (fun _ h => .inr (.inl h))) hg) ?_ hg
    intro gs hg
    refine step _ _ _ (fun gs hg => keep _ gs (writes_mono (h.compress _ _) (fun _ h => .inl h)) hg) ?_ hg
    intro gs hg
    refine step _ _ _ (fun gs hg => keep _ gs (writes_mono (writes_product _ _ _) (fun _ h => .inr (.inr (.inr h)))) hg) hc hg

/-- the state in which the first stage of an extraction runs, when nothing stands in the way of the folders -/
theorem extract_first (a : Args) (ci : CheckIndex) (st : ExtractStages) (fs : Fs)
    (hi : ∃ o, ci fs = some o ∧ o ≠ some 0) (hd : a.descent = none)
    (hm : st.container a.product (stage a.tempDir "decode_stage_0".toList) (rmtree a.tempDir (rmtree a.src fs)) = (gs, false)) :
    (extract a ci st fs).2 = false ∧
      ((extract a ci st fs).1 = gs ∨ (extract a ci st fs).1 = rmtree a.src fs ∨
        (extract a ci st fs).1 = rmtree a.tempDir (rmtree a.src fs)) := by
  unfold extract
  rw [withIndex_body hi]
  unfold extractBody
  have hw : when a.descent.isNone (clearDir a.src) fs = clearDir a.src fs := by unfold when; rw [hd]; rfl
  rcases andThen_split (when a.descent.isNone (clearDir a.src)) _ fs with ⟨h, h'⟩ | ⟨_, h⟩
  · rw [h, hw] at *
    exact ⟨h', .inr (.inl rfl)⟩
  · rw [h, hw]
    rcases andThen_split (clearDir a.tempDir) _ (clearDir a.src fs).1 with ⟨h, h'⟩ | ⟨_, h⟩
    · rw [h]; exact ⟨h', .inr (.inr rfl)⟩
    · rw [h]
      have hm' : st.container a.product (stage a.tempDir "decode_stage_0".toList) (clearDir a.tempDir (clearDir a.src fs).1).1 = (gs, false) := hm
      rcases andThen_split (st.container a.product (stage a.tempDir "decode_stage_0".toList)) _ (clearDir a.tempDir (clearDir a.src fs).1).1
        with ⟨h, h'⟩ | ⟨h', _⟩
      · rw [h, hm']; exact ⟨rfl, .inl rfl⟩
      · rw [hm'] at h'; cases h'

/-- **C73 is false of the code: a failed extraction destroys the old sources.**  The folder of sources is emptied before the
product is opened; with a product that is not there - a wrong file name, or a product inside the folder of sources or the
temporary folder, which is deleted first - the command fails and nothing of the sources is left. -/
theorem C73_extract_destroys_neg (a : Args) (ci : CheckIndex) (st : ExtractStages) (R : Place → Prop) (h : st.Ok R) (fs : Fs)
    (hi : ∃ o, ci fs = some o ∧ o ≠ some 0) (hd : a.descent = none) (hne : a.product ≠ a.src ∧ a.product ≠ a.tempDir)
    (hm : fs a.product = none ∨ Under a.src a.product ∨ Under a.tempDir a.product) :
    (extract a ci st fs).2 = false ∧
      ∀ p, Under a.src p → p ≠ a.src → ¬ Under (stage a.tempDir "decode_stage_0".toList) p → (extract a ci st fs).1 p = none := by
  have hgone : rmtree a.tempDir (rmtree a.src fs) a.product = none := by
    unfold rmtree
    by_cases h1 : a.tempDir <+: a.product ∧ a.product ≠ a.tempDir
    · rw [if_pos h1]
    · rw [if_neg h1]
      by_cases h2 : a.src <+: a.product ∧ a.product ≠ a.src
      · rw [if_pos h2]
      · rw [if_neg h2]
        rcases hm with hm | hm | hm
        · exact hm
        · exact absurd ⟨hm, hne.1⟩ h2
        · exact absurd ⟨hm, hne.2⟩ h1
  have hfail := h.missing a.product (stage a.tempDir "decode_stage_0".toList) _ hgone
  cases hc : st.container a.product (stage a.tempDir "decode_stage_0".toList) (rmtree a.tempDir (rmtree a.src fs)) with
  | mk gs ok =>
    rw [hc] at hfail
    simp only at hfail
    subst hfail
    obtain ⟨h1, h2⟩ := extract_first a ci st fs hi hd hc
    refine ⟨h1, ?_⟩
    intro p hp hpn hst
    have e1 : rmtree a.src fs p = none := rmtree_under _ _ _ hp hpn
    have e2 : rmtree a.tempDir (rmtree a.src fs) p = none := by
      unfold rmtree at *
      by_cases h1 : a.tempDir <+: p ∧ p ≠ a.tempDir
      · rw [if_pos h1]
      · rw [if_neg h1]; exact e1
    rcases h2 with h2 | h2 | h2
    · rw [h2]
      have := h.container a.product (stage a.tempDir "decode_stage_0".toList) (rmtree a.tempDir (rmtree a.src fs)) p hst
      rw [hc] at this
      exact this.trans e2
    · rw [h2]; exact e1
    · rw [h2]; exact e2

/-! ## The old product -/

/-- **C73 (the old product).**  A build that fails leaves the product as it was, unless it was the last stage that failed
while it was writing; a build that returns normally has written the complete contents. -/
theorem C73_build_product (a : Args) (ci : CheckIndex) (st : BuildStages) (h : st.Ok) (fs : Fs)
    (hi : ∃ o, ci fs = some o ∧ o ≠ some 0) (hp : ¬ Under a.tempDir a.product) :
    ((build a ci st fs).2 = false → (build a ci st fs).1 a.product = fs a.product ∨
      ∃ gs b, st.contents (stage a.tempDir "encode_stage_0".toList) gs = some (b, false) ∧ (build a ci st fs).1 a.product = some b) ∧
    ((build a ci st fs).2 = true →
      ∃ gs b, st.contents (stage a.tempDir "encode_stage_0".toList) gs = some (b, true) ∧ (build a ci st fs).1 a.product = some b) := by
  unfold build
  rw [withIndex_body hi]
  unfold buildBody
  have hs : ∀ n, ¬ Under (stage a.tempDir n) a.product := fun n hc => hp (under_stage hc)
  rcases andThen_split (clearDir a.tempDir) _ fs with ⟨h1, h1'⟩ | ⟨_, h1⟩
  · rw [h1]
    exact ⟨fun _ => .inl (writes_clear _ fs _ hp), fun hc => by rw [h1'] at hc; cases hc⟩
  rw [h1]
  have e1 := writes_clear _ fs _ hp
  generalize (clearDir a.tempDir fs).1 = g1 at *
  rcases andThen_split (st.pack a.src (stage a.tempDir "encode_stage_3".toList)) _ g1 with ⟨h2, h2'⟩ | ⟨_, h2⟩
  · rw [h2]
    exact ⟨fun _ => .inl ((h.pack _ _ g1 _ (hs _)).trans e1), fun hc => by rw [h2'] at hc; cases hc⟩
  rw [h2]
  have e2 := (h.pack a.src _ g1 _ (hs "encode_stage_3".toList)).trans e1
  generalize (st.pack a.src (stage a.tempDir "encode_stage_3".toList) g1).1 = g2 at *
  rcases andThen_split (st.encode (stage a.tempDir "encode_stage_3".toList) (stage a.tempDir "encode_stage_1".toList)) _ g2
    with ⟨h3, h3'⟩ | ⟨_, h3⟩
  · rw [h3]
    exact ⟨fun _ => .inl ((h.encode _ _ g2 _ (hs _)).trans e2), fun hc => by rw [h3'] at hc; cases hc⟩
  rw [h3]
  have e3 := (h.encode (stage a.tempDir "encode_stage_3".toList) _ g2 _ (hs "encode_stage_1".toList)).trans e2
  generalize (st.encode (stage a.tempDir "encode_stage_3".toList) (stage a.tempDir "encode_stage_1".toList) g2).1 = g3 at *
  rcases andThen_split (st.compress (stage a.tempDir "encode_stage_1".toList) (stage a.tempDir "encode_stage_0".toList)) _ g3
    with ⟨h4, h4'⟩ | ⟨_, h4⟩
  · rw [h4]
    exact ⟨fun _ => .inl ((h.compress _ _ g3 _ (hs _)).trans e3), fun hc => by rw [h4'] at hc; cases hc⟩
  rw [h4]
  have e4 := (h.compress (stage a.tempDir "encode_stage_1".toList) _ g3 _ (hs "encode_stage_0".toList)).trans e3
  generalize (st.compress (stage a.tempDir "encode_stage_1".toList) (stage a.tempDir "encode_stage_0".toList) g3).1 = g4 at *
  have hwp : ((writeProduct st (stage a.tempDir "encode_stage_0".toList) a.product g4).2 = false ∧
        (writeProduct st (stage a.tempDir "encode_stage_0".toList) a.product g4).1 a.product = g4 a.product) ∨
      ∃ b ok, st.contents (stage a.tempDir "encode_stage_0".toList) g4 = some (b, ok) ∧
        writeProduct st (stage a.tempDir "encode_stage_0".toList) a.product g4 = (put a.product b g4, ok) := by
    unfold writeProduct
    cases canMake a.product.dropLast g4 with
    | false => exact .inl ⟨rfl, rfl⟩
    | true =>
      cases hc : st.contents (stage a.tempDir "encode_stage_0".toList) g4 with
      | none => exact .inl ⟨rfl, rfl⟩
      | some r => exact .inr ⟨r.1, r.2, rfl, rfl⟩
  have hput : ∀ b (g : Fs), put a.product b g a.product = some b := by intro b g; unfold put; rw [if_pos rfl]
  rcases hwp with ⟨hf, hk⟩ | ⟨b, ok, hc, hw⟩
  · rcases andThen_split (writeProduct st (stage a.tempDir "encode_stage_0".toList) a.product) (cleanUp a) g4 with ⟨h5, h5'⟩ | ⟨h5', _⟩
    · rw [h5]
      exact ⟨fun _ => .inl (hk.trans e4), fun hc => by rw [h5'] at hc; cases hc⟩
    · rw [h5'] at hf; cases hf
  · rcases andThen_split (writeProduct st (stage a.tempDir "encode_stage_0".toList) a.product) (cleanUp a) g4 with ⟨h5, h5'⟩ | ⟨h5', h5⟩
    · rw [h5, hw]
      rw [hw] at h5'
      simp only at h5'
      subst h5'
      exact ⟨fun _ => .inr ⟨g4, b, hc, hput b g4⟩, fun hc => by cases hc⟩
    · rw [h5, hw]
      rw [hw] at h5'
      simp only at h5'
      subst h5'
      have hcl : (cleanUp a (put a.product b g4)).2 = true := by
        unfold cleanUp when
        cases a.temp.isNone <;> rfl
      refine ⟨fun hc => (by rw [hcl] at hc; cases hc), fun _ => ⟨g4, b, hc, ?_⟩⟩
      rw [writes_cleanUp a _ _ hp]
      exact hput b g4

/-- **C73 (nothing is left behind).**  When no temporary folder was given, a command that returns normally has removed the
one it made. -/
theorem C73_temp_removed (a : Args) (st : ExtractStages) (sb : BuildStages) (fs : Fs) (ht : a.temp = none) (p : Place)
    (hp : Under a.fresh p) (hne : p ≠ a.fresh) :
    ((extractBody a st fs).2 = true → (extractBody a st fs).1 p = none) ∧
    ((buildBody a sb fs).2 = true → (buildBody a sb fs).1 p = none) := by
  have htd : a.tempDir = a.fresh := by unfold Args.tempDir; rw [ht]; rfl
  have hc : ∀ gs : Fs, (cleanUp a gs).2 = true → (cleanUp a gs).1 p = none := by
    intro gs _
    unfold cleanUp when
    rw [ht, htd]
    exact rmtree_under _ _ _ hp hne
  have step : ∀ s r : Step, (∀ gs : Fs, (r gs).2 = true → (r gs).1 p = none) → ∀ gs : Fs, (andThen s r gs).2 = true → (andThen s r gs).1 p = none := by
    intro s r hr gs hok
    rcases andThen_split s r gs with ⟨h, h'⟩ | ⟨_, h⟩
    · rw [h, h'] at hok; cases hok
    · rw [h] at hok ⊢; exact hr _ hok
  exact ⟨step _ _ (step _ _ (step _ _ (step _ _ (step _ _ (step _ _ hc))))) fs,
    step _ _ (step _ _ (step _ _ (step _ _ (step _ _ hc)))) fs⟩

/-! ## The result does not depend on what was there before -/

theorem canMake_same (d : Place) (fs gs : Fs) (h : Same (· <+: d) fs gs) : canMake d fs = canMake d gs := by
  unfold canMake
  rw [Bool.eq_iff_iff, List.all_eq_true, List.all_eq_true]
  constructor <;> intro hx k hk
  · rw [← h _ (List.take_prefix k d)]; exact hx k hk
  · rw [h _ (List.take_prefix k d)]; exact hx k hk

theorem rmtree_same (d : Place) (A : Place → Prop) (fs gs : Fs) (h : Same (fun p => A p ∧ (¬ Under d p ∨ p = d)) fs gs) :
    Same A (rmtree d fs) (rmtree d gs) := by
  intro p hp
  unfold rmtree
  by_cases hc : d <+: p ∧ p ≠ d
  · rw [if_pos hc, if_pos hc]
  · rw [if_neg hc, if_neg hc]
    refine h p ⟨hp, ?_⟩
    by_cases h1 : d <+: p
    · by_cases h2 : p = d
      · exact .inr h2
      · exact absurd ⟨h1, h2⟩ hc
    · exact .inl h1

/-- a stage that reads in `A` keeps two file systems equal on `A` -/
theorem same_stage {R D A : Place → Prop} {s : Step} (hr : Reads R D s) (hw : Writes D s) (hR : ∀ p, R p → A p) (fs gs : Fs)
    (h : Same A fs gs) : Same A (s fs).1 (s gs).1 ∧ (s fs).2 = (s gs).2 := by
  obtain ⟨h1, h2⟩ := hr fs gs (fun p hp => h p (hR p hp))
  refine ⟨?_, h2⟩
  intro p hp
  by_cases hd : D p
  · exact h1 p hd
  · rw [hw fs p hd, hw gs p hd]; exact h p hp

/-- steps that keep two file systems equal, one after the other; `P`: what is to be equal at the end -/
theorem same_then {A : Place → Prop} {P : Fs → Fs → Prop} {a b : Step} {fs gs : Fs}
    (ha : Same A (a fs).1 (a gs).1 ∧ (a fs).2 = (a gs).2)
    (hb : ∀ fs gs, Same A fs gs → (b fs).2 = (b gs).2 ∧ ((b fs).2 = true → P (b fs).1 (b gs).1)) :
    (andThen a b fs).2 = (andThen a b gs).2 ∧ ((andThen a b fs).2 = true → P (andThen a b fs).1 (andThen a b gs).1) := by
  rcases andThen_split a b fs with ⟨h1, h1'⟩ | ⟨h1', h1⟩
  · rcases andThen_split a b gs with ⟨h2, h2'⟩ | ⟨h2', _⟩
    · rw [h1, h2, h1', h2']; exact ⟨rfl, fun h => by cases h⟩
    · rw [← ha.2, h1'] at h2'; cases h2'
  · rcases andThen_split a b gs with ⟨_, h2'⟩ | ⟨_, h2⟩
    · rw [← ha.2, h1'] at h2'; cases h2'
    · rw [h1, h2]; exact hb _ _ ha.1

theorem clear_same (d : Place) (A : Place → Prop) (fs gs : Fs) (hA : ∀ p, p <+: d → A p)
    (h : Same (fun p => A p ∧ (¬ Under d p ∨ p = d)) fs gs) :
    Same A (clearDir d fs).1 (clearDir d gs).1 ∧ (clearDir d fs).2 = (clearDir d gs).2 := by
  have h1 := rmtree_same d A fs gs h
  exact ⟨h1, canMake_same d _ _ (fun p hp => h1 p (hA p hp))⟩

/-- **C73 (build does not depend on history).**  Two file systems with the same sources, the same common folders (`C`), the same
index and the same files where folders have to be made give the same outcome and, if it is success, the same product:
nothing that was in the temporary folder, in the old product or elsewhere matters. -/
theorem C73_build_history (a : Args) (ci : CheckIndex) (st : BuildStages) (C : Place → Prop) (h : st.Ok) (hdet : st.Det C) (fs gs : Fs)
    (hi : ∃ o, ci fs = some o ∧ o ≠ some 0) (hci : ci fs = ci gs) (hp : ¬ Under a.tempDir a.product)
    (hsame : Same (fun p => Under a.src p ∨ C p ∨ p <+: a.tempDir ∨ p <+: a.product.dropLast) fs gs) :
    (build a ci st fs).2 = (build a ci st gs).2 ∧
      ((build a ci st fs).2 = true → (build a ci st fs).1 a.product = (build a ci st gs).1 a.product) := by
  unfold build
  rw [withIndex_body hi, withIndex_body (hci ▸ hi)]
  unfold buildBody
  let A : Place → Prop := fun p => Under a.tempDir p ∨ Under a.src p ∨ C p ∨ p <+: a.tempDir ∨ p <+: a.product.dropLast
  have hst : ∀ {n p}, Under (stage a.tempDir n) p → A p := fun h => .inl (under_stage h)
  refine same_then (A := A) (P := fun fs gs => fs a.product = gs a.product) (clear_same a.tempDir A fs gs (fun p hp => .inr (.inr (.inr (.inl hp)))) ?_) ?_
  · intro p hp
    rcases hp with ⟨hp | hp, hn⟩
    · rcases hn with hn | hn
      · exact absurd hp hn
      · exact hsame p (.inr (.inr (.inl (hn ▸ List.prefix_refl _))))
    · exact hsame p hp
  intro fs gs hs
  refine same_then (A := A) (P := fun fs gs => fs a.product = gs a.product) (same_stage (hdet.pack _ _) (h.pack _ _) ?_ fs gs hs) ?_
  · rintro p (hp | hp | hp)
    · exact .inr (.inl hp)
    · exact hst hp
    · exact .inr (.inr (.inl hp))
  intro fs gs hs
  refine same_then (A := A) (P := fun fs gs => fs a.product = gs a.product) (same_stage (hdet.encode _ _) (h.encode _ _) ?_ fs gs hs) ?_
  · rintro p (hp | hp) <;> exact hst hp
  intro fs gs hs
  refine same_then (A := A) (P := fun fs gs => fs a.product = gs a.product) (same_stage (hdet.compress _ _) (h.compress _ _) ?_ fs gs hs) ?_
  · rintro p (hp | hp) <;> exact hst hp
  intro fs gs hs
  have hcm := canMake_same a.product.dropLast fs gs (fun p hp => hs p (.inr (.inr (.inr (.inr hp)))))
  have hct := hdet.contents (stage a.tempDir "encode_stage_0".toList) fs gs (fun p hp => hs p (hst hp))
  have hcu : ∀ fs : Fs, (cleanUp a fs).2 = true ∧ (cleanUp a fs).1 a.product = fs a.product := by
    intro fs
    refine ⟨?_, writes_cleanUp a _ _ hp⟩
    unfold cleanUp when
    cases a.temp.isNone <;> rfl
  have hput : ∀ b (g : Fs), put a.product b g a.product = some b := by intro b g; unfold put; rw [if_pos rfl]
  unfold andThen writeProduct
  rw [← hcm, ← hct]
  cases canMake a.product.dropLast fs with
  | false => exact ⟨rfl, fun h => by cases h⟩
  | true =>
    simp only [if_true]
    cases st.contents (stage a.tempDir "encode_stage_0".toList) fs with
    | none => exact ⟨rfl, fun h => by cases h⟩
    | some r =>
      obtain ⟨b, ok⟩ := r
      cases ok with
      | false => exact ⟨rfl, fun h => by cases h⟩
      | true =>
        simp only
        refine ⟨by rw [(hcu _).1, (hcu _).1], fun _ => ?_⟩
        rw [(hcu _).2, (hcu _).2, hput, hput]

/-- **C73 (extract does not depend on history).**  Without `descent`, two file systems with the same product, the same index and
the same files where folders have to be made give the same outcome and, if it is success, the same sources: nothing of the old
sources is mixed in. -/
theorem C73_extract_history (a : Args) (ci : CheckIndex) (st : ExtractStages) (R : Place → Prop) (h : st.Ok R) (hdet : st.Det) (fs gs : Fs)
    (hi : ∃ o, ci fs = some o ∧ o ≠ some 0) (hci : ci fs = ci gs) (hd : a.descent = none)
    (hp : ¬ Under a.tempDir a.product ∧ ¬ Under a.src a.product)
    (hsame : Same (fun p => p = a.product ∨ p <+: a.tempDir ∨ p <+: a.src) fs gs) :
    (extract a ci st fs).2 = (extract a ci st gs).2 ∧
      ((extract a ci st fs).2 = true → ∀ p, Under a.src p → (extract a ci st fs).1 p = (extract a ci st gs).1 p) := by
  unfold extract
  rw [withIndex_body hi, withIndex_body (hci ▸ hi)]
  unfold extractBody
  let A : Place → Prop := fun p => Under a.tempDir p ∨ Under a.src p ∨ p = a.product ∨ p <+: a.tempDir ∨ p <+: a.src
  let A1 : Place → Prop := fun p => Under a.src p ∨ p = a.product ∨ p <+: a.tempDir ∨ p <+: a.src
  have hst : ∀ {n p}, Under (stage a.tempDir n) p → A p := fun h => .inl (under_stage h)
  have hw : when a.descent.isNone (clearDir a.src) = clearDir a.src := by funext fs; unfold when; rw [hd]; rfl
  rw [hw]
  refine same_then (A := A1) (P := fun fs gs => ∀ p, Under a.src p → fs p = gs p) (clear_same a.src A1 fs gs (fun p hp => .inr (.inr (.inr hp))) ?_) ?_
  · rintro p ⟨hp | hp, hn⟩
    · rcases hn with hn | hn
      · exact absurd hp hn
      · exact hsame p (.inr (.inr (hn ▸ List.prefix_refl _)))
    · exact hsame p hp
  intro fs gs hs
  refine same_then (A := A) (P := fun fs gs => ∀ p, Under a.src p → fs p = gs p) (clear_same a.tempDir A fs gs (fun p hp => .inr (.inr (.inr (.inl hp)))) ?_) ?_
  · rintro p ⟨hp | hp, hn⟩
    · rcases hn with hn | hn
      · exact absurd hp hn
      · exact hs p (.inr (.inr (.inl (hn ▸ List.prefix_refl _))))
    · exact hs p hp
  intro fs gs hs
  refine same_then (A := A) (P := fun fs gs => ∀ p, Under a.src p → fs p = gs p) (same_stage (hdet.container _ _) (h.container _ _) ?_ fs gs hs) ?_
  · rintro p (hp | hp)
    · exact .inr (.inr (.inl hp))
    · exact hst hp
  intro fs gs hs
  refine same_then (A := A) (P := fun fs gs => ∀ p, Under a.src p → fs p = gs p) (same_stage (hdet.decompress _ _) (h.decompress _ _) ?_ fs gs hs) ?_
  · rintro p (hp | hp) <;> exact hst hp
  intro fs gs hs
  refine same_then (A := A) (P := fun fs gs => ∀ p, Under a.src p → fs p = gs p) (same_stage (hdet.decode _ _) (h.decode _ _) ?_ fs gs hs) ?_
  · rintro p (hp | hp) <;> exact hst hp
  intro fs gs hs
  have hu := hdet.unpack (stage a.tempDir "decode_stage_3".toList) a.src fs gs (by
    rintro p (hp | hp)
    · exact hs p (hst hp)
    · exact hs p (.inr (.inl hp)))
  refine same_then (A := Under a.src) (P := fun fs gs => ∀ p, Under a.src p → fs p = gs p) hu ?_
  intro fs gs hs
  refine ⟨?_, fun _ p hp => ?_⟩
  · unfold cleanUp when
    cases a.temp.isNone <;> rfl
  · unfold cleanUp when
    cases a.temp.isNone with
    | false => exact hs p hp
    | true =>
      simp only [if_true]
      unfold rmtree
      by_cases hc : a.tempDir <+: p ∧ p ≠ a.tempDir
      · rw [if_pos hc, if_pos hc]
      · rw [if_neg hc, if_neg hc]; exact hs p hp

/-! ## The hypotheses are met -/

/-- a stage that copies a folder; it fails when the folder has no file `need` -/
def copyStage (s d need : Place) : Step := fun fs =>
  ((fun p => if d <+: p then fs (s ++ p.drop d.length) else fs p), (fs (s ++ need)).isSome)

theorem copyStage_writes (s d need : Place) : Writes (Under d) (copyStage s d need) := by
  intro fs p h
  have h' : ¬ d <+: p := h
  show (if d <+: p then _ else fs p) = fs p
  rw [if_neg h']

theorem copyStage_reads (s d need : Place) : Reads (fun p => Under s p ∨ Under d p) (Under d) (copyStage s d need) := by
  intro fs gs h
  refine ⟨?_, ?_⟩
  · intro p hp
    have hp' : d <+: p := hp
    show (if d <+: p then fs _ else fs p) = (if d <+: p then gs _ else gs p)
    rw [if_pos hp', if_pos hp', h _ (.inl (List.prefix_append _ _))]
  · show (fs _).isSome = (gs _).isSome
    rw [h _ (.inl (List.prefix_append _ _))]

def exBuild : BuildStages :=
  ⟨fun s d => copyStage s d ["m".toList], fun s d => copyStage s d ["m".toList], fun s d => copyStage s d ["m".toList],
    fun d fs => (fs (d ++ ["m".toList])).map (·, true)⟩

theorem exBuild_ok : exBuild.Ok := ⟨fun _ _ => copyStage_writes _ _ _, fun _ _ => copyStage_writes _ _ _, fun _ _ => copyStage_writes _ _ _⟩

theorem exBuild_det : exBuild.Det (fun _ => False) := by
  refine ⟨?_, fun _ _ => copyStage_reads _ _ _, fun _ _ => copyStage_reads _ _ _, ?_⟩
  · intro s d fs gs h
    refine copyStage_reads s d _ fs gs (fun p hp => h p ?_)
    rcases hp with hp | hp
    · exact .inl hp
    · exact .inr (.inl hp)
  · intro d fs gs h
    show (fs _).map _ = (gs _).map _
    rw [h _ (List.prefix_append _ _)]

/-- the first stage copies the product into the folder -/
def exFirst (i d : Place) : Step := fun fs =>
  ((fun p => if p = d ++ ["m".toList] then fs i else fs p), (fs i).isSome)

def exExtract : ExtractStages :=
  ⟨exFirst, fun s d => copyStage s d ["m".toList], fun s d => copyStage s d ["m".toList], fun s d => copyStage s d ["m".toList]⟩

theorem exExtract_ok : exExtract.Ok (fun _ => False) := by
  refine ⟨?_, fun _ _ => copyStage_writes _ _ _, fun _ _ => copyStage_writes _ _ _,
    fun _ _ => writes_mono (copyStage_writes _ _ _) (fun _ h => .inl h), ?_⟩
  · intro i d fs p h
    show (if p = _ then _ else fs p) = fs p
    rw [if_neg]
    rintro rfl
    exact h (List.prefix_append _ _)
  · intro i d fs h
    show (fs i).isSome = false
    rw [h]; rfl

theorem exExtract_det : exExtract.Det := by
  refine ⟨?_, fun _ _ => copyStage_reads _ _ _, fun _ _ => copyStage_reads _ _ _, fun _ _ => copyStage_reads _ _ _⟩
  intro i d fs gs h
  refine ⟨?_, ?_⟩
  · intro p hp
    show (if p = _ then fs i else fs p) = (if p = _ then gs i else gs p)
    rw [h i (.inl rfl), h p (.inr hp)]
  · show (fs i).isSome = (gs i).isSome
    rw [h i (.inl rfl)]

/-- sources with one file, an old product, and something in the temporary folder -/
def exFs : Fs := fun p =>
  if p = ["s".toList, "m".toList] then some [1, 2] else if p = ["x.cf".toList] then some [9]
  else if p = ["t".toList, "old".toList] then some [7] else none

def exArgs : Args := ⟨["x.cf".toList], ["s".toList], some ["t".toList], ["f".toList], none⟩

/-- a build that replaces the old product by the new one and empties the temporary folder -/
example : (build exArgs (fun _ => some none) exBuild exFs).2 = true ∧
    (build exArgs (fun _ => some none) exBuild exFs).1 ["x.cf".toList] = some [1, 2] ∧
    (build exArgs (fun _ => some none) exBuild exFs).1 ["t".toList, "old".toList] = none ∧
    (build exArgs (fun _ => some none) exBuild exFs).1 ["s".toList, "m".toList] = some [1, 2] ∧
    ¬ Under exArgs.tempDir exArgs.src ∧ ¬ Under exArgs.src exArgs.tempDir ∧ ¬ Under exArgs.src exArgs.product ∧
    ¬ Under exArgs.tempDir exArgs.product := by decide

/-- an extraction that replaces the sources -/
example : (extract exArgs (fun _ => some none) exExtract exFs).2 = true ∧
    (extract exArgs (fun _ => some none) exExtract exFs).1 ["s".toList, "m".toList] = some [9] := by decide

/-- an extraction with a wrong file name: the sources are gone -/
example : (extract { exArgs with product := ["y.cf".toList] } (fun _ => some none) exExtract exFs).2 = false ∧
    (extract { exArgs with product := ["y.cf".toList] } (fun _ => some none) exExtract exFs).1 ["s".toList, "m".toList] = none := by decide

/-- a build whose temporary folder is the folder of sources: the sources are gone -/
example : (build { exArgs with temp := some ["s".toList] } (fun _ => some none) exBuild exFs).2 = false ∧
    (build { exArgs with temp := some ["s".toList] } (fun _ => some none) exBuild exFs).1 ["s".toList, "m".toList] = none := by decide

end V8.Top
