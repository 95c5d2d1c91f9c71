import Verif.DescentLemmas
/-
C18-C21, C46, C47: file versions (descents).
-/
namespace V8.Descent
open V8.Str V8.Dec

/-! ### Specification, in plain text operations -/

/-- the name of version `v` of the file `base.e`: version 0 is the plain file -/
def versionFile (base e : Text) (v : Nat) : Text :=
  if v = 0 then base ++ '.' :: e else base ++ '.' :: (showNat v ++ '.' :: e)

/-- No file of the folder merely looks like a version of `base.e`: one that begins with `base`, ends in `e`, and has a
number in the one additional dot part before the extension really is `base.v.e` for a version `v`. -/
def NoLookAlike (dir : Folder) (base e : Text) : Prop := ClearNames dir (base ++ '.' :: e)

theorem split_base (base e : Text) (he : '.' ∉ e) : split '.' (base ++ '.' :: e) = split '.' base ++ [e] := by
  induction base with
  | nil =>
    have := split_append '.' [] e (by simp)
    rw [List.nil_append] at this ⊢
    rw [this, split_clean '.' e he]; rfl
  | cons c t ih =>
    by_cases h : c = '.'
    · subst h
      have h1 := split_append '.' [] (t ++ '.' :: e) (by simp)
      have h2 := split_append '.' [] t (by simp)
      rw [List.nil_append] at h1 h2
      rw [List.cons_append, h1, h2, ih]; rfl
    · have key : ∀ s : Text, ∃ h r, split '.' s = h :: r ∧ split '.' (c :: s) = (c :: h) :: r := by
        intro s
        cases hs : split '.' s with
        | nil => exact absurd hs (split_ne _ _)
        | cons a r =>
          refine ⟨a, r, rfl, ?_⟩
          rw [split, if_neg h, hs]
      obtain ⟨a, r, h1, h2⟩ := key (t ++ '.' :: e)
      obtain ⟨a', r', h1', h2'⟩ := key t
      rw [List.cons_append, h2, h2']
      rw [ih, h1'] at h1
      injection h1 with ha hr
      subst ha; subst hr; rfl

theorem stem_base (base e : Text) (he : '.' ∉ e) : stem (base ++ '.' :: e) = base := by
  rw [stem, split_base base e he, List.dropLast_concat, join_split]

theorem ext_base (base e : Text) (he : '.' ∉ e) : ext (base ++ '.' :: e) = e := by
  rw [ext, split_base base e he, List.getLast?_concat]; rfl

theorem dot_mem (base e : Text) : '.' ∈ base ++ '.' :: e := by simp

/-- get_descent_file_name does what the specification says -/
theorem descentName_base (base e : Text) (he : '.' ∉ e) (v : Nat) : descentName (base ++ '.' :: e) v = versionFile base e v := by
  unfold versionFile
  by_cases hv : v = 0
  · subst hv; rw [if_pos rfl]; rfl
  · rw [if_neg hv, descentName_eq _ (dot_mem base e) v (by omega), stem_base _ _ he, ext_base _ _ he]
    simp

/-! ### C18 -/

/-- **C18 (part)**: the file used at version `d` is the greatest version not above `d` (version 0: the plain file); when
there is none, no file is used.  Missing: sibling names (see `C18_sibling_confused`). -/
theorem C18_newest_not_newer_partial (dir : Folder) (base e : Text) (he : '.' ∉ e) (hc : NoLookAlike dir base e)
    (hfold : (base ++ '.' :: e, none) ∉ dir) (d : Nat) :
    (∃ v, v ≤ d ∧ isFile dir (versionFile base e v) = true ∧
        (∀ w, w ≤ d → isFile dir (versionFile base e w) = true → w ≤ v) ∧
        near dir (base ++ '.' :: e) d = some (versionFile base e v)) ∨
    ((∀ w, w ≤ d → isFile dir (versionFile base e w) = false) ∧ near dir (base ++ '.' :: e) d = none) := by
  have hplain : base ++ '.' :: e ∈ dir.map (·.1) ↔ isFile dir (base ++ '.' :: e) = true := by
    rw [isFile_iff]
    constructor
    · intro h
      obtain ⟨⟨n, c⟩, hp, hn⟩ := List.mem_map.mp h
      simp only at hn; subst hn
      cases c with
      | none => exact absurd hp hfold
      | some c => exact ⟨c, hp⟩
    · rintro ⟨c, h⟩
      exact List.mem_map.mpr ⟨_, h, rfl⟩
  rcases near_spec dir _ (dot_mem base e) hc d with ⟨v, ⟨hv1, hv2⟩, hvd, hmax, hn⟩ | ⟨hno, hn⟩
  · left
    rw [descentName_base _ _ he] at hv2 hn
    refine ⟨v, hvd, hv2, ?_, hn⟩
    intro w hw hf
    by_cases h0 : w = 0
    · omega
    · exact hmax w ⟨by omega, by rw [descentName_base _ _ he]; exact hf⟩ hw
  · have hno' : ∀ w, 1 ≤ w → w ≤ d → isFile dir (versionFile base e w) = false := by
      intro w h1 hw
      cases hf : isFile dir (versionFile base e w) with
      | false => rfl
      | true =>
        have := hno w ⟨h1, by rw [descentName_base _ _ he]; exact hf⟩
        omega
    by_cases hp : base ++ '.' :: e ∈ dir.map (·.1)
    · left
      rw [if_pos hp] at hn
      refine ⟨0, by omega, hplain.mp hp, ?_, hn⟩
      intro w hw hf
      by_cases h0 : w = 0
      · omega
      · rw [hno' w (by omega) hw] at hf; cases hf
    · right
      rw [if_neg hp] at hn
      refine ⟨?_, hn⟩
      intro w hw
      by_cases h0 : w = 0
      · subst h0
        cases hf : isFile dir (versionFile base e 0) with
        | false => rfl
        | true => exact absurd (hplain.mpr hf) hp
      · exact hno' w (by omega) hw

/-- **C18, false in full**: a folder that holds only version `v` of a sibling whose name merely extends `base` (and nothing
of `base` at all) makes the resolution of `base.e` answer a file that does not exist, so that the build stops. -/
theorem C18_sibling_confused (base x e c : Text) (he : '.' ∉ e) (hx : '.' ∉ x) (hxne : x ≠ []) (v d : Nat) (hv : 1 ≤ v) (hvd : v ≤ d) :
    near [(versionFile (base ++ x) e v, some c)] (base ++ '.' :: e) d = some (versionFile base e v) ∧
    isFile [(versionFile (base ++ x) e v, some c)] (versionFile base e v) = false ∧
    load [(versionFile (base ++ x) e v, some c)] (base ++ '.' :: e) d = none := by
  have hname : versionFile (base ++ x) e v = (base ++ x ++ '.' :: showNat v) ++ '.' :: e := by
    unfold versionFile; rw [if_neg (by omega)]; simp [List.append_assoc]
  have hsp : split '.' (versionFile (base ++ x) e v) = split '.' (base ++ x) ++ [showNat v, e] := by
    rw [hname, split_base _ _ he, split_base _ _ (showNat_noDot v)]; simp
  have hlen : (split '.' (base ++ x)).length = (split '.' base).length := by
    have : ∀ b : Text, (split '.' (b ++ x)).length = (split '.' b).length := by
      intro b
      induction b with
      | nil => rw [List.nil_append, split_clean '.' x hx]; rfl
      | cons a t ih =>
        rw [List.cons_append, split, split]
        by_cases h : a = '.'
        · rw [if_pos h, if_pos h, List.length_cons, List.length_cons, ih]
        · rw [if_neg h, if_neg h]
          cases h1 : split '.' (t ++ x) with
          | nil => exact absurd h1 (split_ne _ _)
          | cons p q =>
            cases h2 : split '.' t with
            | nil => exact absurd h2 (split_ne _ _)
            | cons p' q' =>
              rw [h1, h2] at ih
              simpa using ih
    exact this base
  have hst : starts (stem (base ++ '.' :: e)) (versionFile (base ++ x) e v) = true := by
    rw [starts_iff, stem_base _ _ he, hname]
    exact ⟨x ++ '.' :: showNat v ++ '.' :: e, by simp⟩
  have hen : ends (ext (base ++ '.' :: e)) (versionFile (base ++ x) e v) = true := by
    rw [ends_iff, ext_base _ _ he, hname]
    exact ⟨base ++ x ++ '.' :: showNat v ++ ['.'], by simp⟩
  have hne : versionFile (base ++ x) e v ≠ base ++ '.' :: e := by
    intro h
    have h1 := congrArg List.length h
    rw [hname] at h1
    simp at h1; omega
  have hvers : versionsOf [(versionFile (base ++ x) e v, some c)] (base ++ '.' :: e) = [(v : Int)] := by
    have hpen : (split '.' (versionFile (base ++ x) e v)).dropLast.getLast?.getD [] = showNat v := by
      rw [hsp, show split '.' (base ++ x) ++ [showNat v, e] = (split '.' (base ++ x) ++ [showNat v]) ++ [e] by simp,
        List.dropLast_concat, List.getLast?_concat]; rfl
    have hl2 : ¬ ((split '.' (versionFile (base ++ x) e v)).length - 1 ≠ (split '.' (base ++ '.' :: e)).length) := by
      rw [hsp, split_base base e he]; simp [hlen]
    have hcond : (starts (stem (base ++ '.' :: e)) (versionFile (base ++ x) e v) && ends (ext (base ++ '.' :: e)) (versionFile (base ++ x) e v)) = true := by
      rw [hst, hen]; rfl
    show List.filterMap _ [_] = _
    rw [List.filterMap_cons]
    simp only [hcond, if_true, if_neg hne, if_neg hl2, Option.isSome, hpen, parse_showNat]
    rfl
  have hnear : near [(versionFile (base ++ x) e v, some c)] (base ++ '.' :: e) d = some (versionFile base e v) := by
    unfold near
    rw [hvers]
    show (if (v : Int) > (d : Int) then _ else _) = _
    rw [if_neg (by omega), stem_base _ _ he, ext_base _ _ he]
    unfold versionFile
    rw [if_neg (by omega)]
    simp [showInt]
  have hdiff : versionFile (base ++ x) e v ≠ versionFile base e v := by
    intro h
    have h1 := congrArg List.length h
    unfold versionFile at h1
    rw [if_neg (by omega), if_neg (by omega)] at h1
    simp at h1; exact hxne h1
  refine ⟨hnear, ?_, ?_⟩
  · unfold isFile
    rw [List.any_cons, List.any_nil, Bool.or_false, decide_eq_false_iff_not]
    exact fun h => hdiff h.1
  · unfold load
    rw [hnear]
    show read _ _ = none
    unfold read
    rw [List.find?_cons, decide_eq_false (by exact hdiff)]
    rfl

/-! ### C21 -/

/-- **C21 (part)**: removing the version suffix undoes adding it (any version at least 1).  Missing: see
`C21_zero_padded_lost` and `C21_numeric_name_changed` for names the code does not return unchanged. -/
theorem C21_suffix_removed_partial (base e : Text) (he : '.' ∉ e) (v : Nat) (hv : 1 ≤ v) :
    removeDescent (versionFile base e v) = some (base ++ '.' :: e) := by
  have hname : versionFile base e v = (base ++ '.' :: showNat v) ++ '.' :: e := by
    unfold versionFile; rw [if_neg (by omega)]; simp
  have hsp : split '.' (versionFile base e v) = (split '.' base ++ [showNat v]) ++ [e] := by
    rw [hname, split_base _ _ he, split_base _ _ (showNat_noDot v)]
  have hlen : ¬ ((split '.' base ++ [showNat v]) ++ [e]).length < 3 := by
    have := List.length_pos_iff.mpr (split_ne '.' base)
    simp; omega
  unfold removeDescent
  simp only [hsp]
  rw [if_neg hlen, List.dropLast_concat, List.getLast?_concat]
  simp only [Option.getD_some, parse_showNat, List.dropLast_concat, hname, ext_base _ _ he]
  rw [if_pos (by rfl)]
  congr 1
  rw [← split_base _ _ he, join_split]

/-- **C21**, the other half: a name with fewer than two dots is returned unchanged -/
theorem C21_short_unchanged (file : Text) (h : (split '.' file).length < 3) : removeDescent file = some file := by
  unfold removeDescent; simp only [if_pos h]

/-- **C21**: a name whose part before the extension is no number is returned unchanged -/
theorem C21_word_unchanged (base m e : Text) (hm : '.' ∉ m) (he : '.' ∉ e) (hn : parseInt m = none) :
    removeDescent (base ++ '.' :: (m ++ '.' :: e)) = some (base ++ '.' :: (m ++ '.' :: e)) := by
  have hsp : split '.' (base ++ '.' :: (m ++ '.' :: e)) = (split '.' base ++ [m]) ++ [e] := by
    rw [show base ++ '.' :: (m ++ '.' :: e) = (base ++ '.' :: m) ++ '.' :: e by simp, split_base _ _ he, split_base _ _ hm]
  unfold removeDescent
  simp only [hsp, List.dropLast_concat, List.getLast?_concat, Option.getD_some, hn]
  split <;> rfl

/-- **C21, false in full**: a name whose part before the extension is a number not written in the canonical way (such as
`01`) is not returned unchanged: the answer is no name at all -/
theorem C21_zero_padded_lost (base m e : Text) (hm : '.' ∉ m) (he : '.' ∉ e) (n : Int) (hn : parseInt m = some n) (hs : showInt n ≠ m) :
    removeDescent (base ++ '.' :: (m ++ '.' :: e)) = none := by
  have hsp : split '.' (base ++ '.' :: (m ++ '.' :: e)) = (split '.' base ++ [m]) ++ [e] := by
    rw [show base ++ '.' :: (m ++ '.' :: e) = (base ++ '.' :: m) ++ '.' :: e by simp, split_base _ _ he, split_base _ _ hm]
  have hlen : ¬ ((split '.' base ++ [m]) ++ [e]).length < 3 := by
    have := List.length_pos_iff.mpr (split_ne '.' base)
    simp; omega
  unfold removeDescent
  simp only [hsp]
  rw [if_neg hlen, List.dropLast_concat, List.getLast?_concat]
  simp only [Option.getD_some, hn]
  rw [if_neg hs]

example : removeDescent "Report.01.bsl".toList = none := by decide +kernel

/-- **C21, false in full**: a name that itself ends in a number part loses it although no version was added -/
theorem C21_numeric_name_changed (base e : Text) (he : '.' ∉ e) (v : Nat) (hv : 1 ≤ v) :
    removeDescent (versionFile base e v) ≠ some (versionFile base e v) := by
  rw [C21_suffix_removed_partial base e he v hv]
  intro h
  injection h with h
  have := congrArg List.length h
  unfold versionFile at this
  rw [if_neg (by omega)] at this
  simp at this; omega

example : removeDescent "Form.elem.3000112.json".toList = some "Form.elem.json".toList ∧ versionFile "Form.elem".toList "json".toList 3000112 = "Form.elem.3000112.json".toList := by
  decide +kernel

/-! ### C20 -/

theorem near_of_write (dir dir' : Folder) (base e c : Text) (he : '.' ∉ e) (hc : NoLookAlike dir base e) (d : Nat)
    (h : write dir (versionFile base e d) c = some dir') : near dir' (base ++ '.' :: e) d = some (versionFile base e d) := by
  obtain ⟨w1, w2, w3, w4⟩ := write_read _ _ _ _ h
  rcases Nat.eq_zero_or_pos d with hd | hd
  · subst hd
    have hin : base ++ '.' :: e ∈ dir'.map (·.1) := by
      obtain ⟨x, hx⟩ := (isFile_iff _ _).mp w2
      exact List.mem_map.mpr ⟨_, hx, rfl⟩
    have hc' : ClearNames dir' (base ++ '.' :: e) := by
      intro p hp h1 h2 h3 h4 h5 h6
      obtain ⟨x, hx⟩ := Option.isSome_iff_exists.mp h1
      have hf : isFile dir' p.1 = true := (isFile_iff _ _).mpr ⟨x, by rw [← hx]; exact hp⟩
      rw [(w3 p.1 h2).2, isFile_iff] at hf
      obtain ⟨y, hy⟩ := hf
      exact hc (p.1, some y) hy rfl h2 h3 h4 h5 h6
    rcases near_spec dir' _ (dot_mem base e) hc' 0 with ⟨v, ⟨hv1, _⟩, hvd, _⟩ | ⟨_, hn⟩
    · omega
    · rw [hn, if_pos hin]; rfl
  · have hc' : ClearNames dir' (base ++ '.' :: e) :=
      write_clear dir dir' _ d hd c hc (by rw [descentName_base _ _ he]; exact h)
    rcases near_spec dir' _ (dot_mem base e) hc' d with ⟨v, hv, hvd, hmax, hn⟩ | ⟨hno, _⟩
    · have := hmax d ⟨hd, by rw [descentName_base _ _ he]; exact w2⟩ (Nat.le_refl d)
      have : v = d := by omega
      subst this
      rw [hn, descentName_base _ _ he]
    · have := hno d ⟨hd, by rw [descentName_base _ _ he]; exact w2⟩
      omega

/-- **C20**: what was saved at version `d` is what is used when building at version `d`, written or skipped -/
theorem C20_saved_is_built (dir dir' : Folder) (base e c : Text) (he : '.' ∉ e) (hc : NoLookAlike dir base e) (d : Nat)
    (h : save dir (base ++ '.' :: e) d c = some dir') : load dir' (base ++ '.' :: e) d = some c := by
  rcases save_cases _ _ _ _ _ h with h | ⟨rfl, _, n, hn, hr⟩
  · rw [descentName_base _ _ he] at h
    unfold load
    rw [near_of_write dir dir' base e c he hc d h]
    exact (write_read _ _ _ _ h).1
  · unfold load; rw [hn]; exact hr

/-- **C20**: such a save succeeds whenever no sub-folder carries one of the names involved -/
theorem C20_save_succeeds (dir : Folder) (base e c : Text) (hc : NoLookAlike dir base e) (hd : Distinct dir)
    (hfold : ∀ p ∈ dir, p.2.isSome = true) (d : Nat) : ∃ dir', save dir (base ++ '.' :: e) d c = some dir' := by
  have hw : ∀ n, ∃ dir', write dir n c = some dir' := by
    intro n
    unfold write
    rw [if_neg]
    · split
      · exact ⟨_, rfl⟩
      · exact ⟨_, rfl⟩
    · intro h
      obtain ⟨p, hp, h2⟩ := List.any_eq_true.mp h
      have h3 := hfold p hp
      rw [(of_decide_eq_true h2).2] at h3; cases h3
  unfold save
  split
  · exact hw _
  · split
    · exact hw _
    · rename_i n hn
      have hread : ∃ x, read dir n = some x := by
        have hf : isFile dir n = true := by
          rcases near_spec dir _ (dot_mem base e) hc d with ⟨v, hv, _, _, h⟩ | ⟨_, h⟩
          · rw [h] at hn; injection hn with hn; rw [← hn]; exact hv.2
          · rw [h] at hn
            split at hn
            · injection hn with hn; subst hn
              rename_i hin
              obtain ⟨⟨n, x⟩, hp, rfl⟩ := List.mem_map.mp hin
              obtain ⟨y, hy⟩ := Option.isSome_iff_exists.mp (hfold _ hp)
              simp only at hy; subst hy
              exact (isFile_iff _ _).mpr ⟨y, hp⟩
            · cases hn
        obtain ⟨x, hx⟩ := (isFile_iff _ _).mp hf
        exact ⟨x, read_mem dir hd n x hx⟩
      obtain ⟨x, hx⟩ := hread
      rw [hx]
      simp only
      split
      · exact ⟨_, rfl⟩
      · exact hw _

/-! ### C19 -/

/-- a history of saves into one folder: file, version, content -/
def saveAll : Folder → List (Text × Nat × Text) → Option Folder
  | dir, [] => some dir
  | dir, (f, v, c) :: r => (save dir f v c).bind (fun dir' => saveAll dir' r)

theorem save_isFile_mono (dir dir' : Folder) (f : Text) (v : Nat) (c : Text) (h : save dir f v c = some dir') (n : Text)
    (hn : isFile dir n = true) : isFile dir' n = true := by
  rcases save_cases _ _ _ _ _ h with h | ⟨rfl, _⟩
  · obtain ⟨_, w2, w3, _⟩ := write_read _ _ _ _ h
    by_cases e : n = descentName f v
    · rw [e]; exact w2
    · rw [(w3 n e).2]; exact hn
  · exact hn

theorem saveAll_isFile_mono (hist : List (Text × Nat × Text)) : ∀ (dir dir' : Folder), saveAll dir hist = some dir' → ∀ n, isFile dir n = true → isFile dir' n = true := by
  induction hist with
  | nil => intro dir dir' h n hn; injection h with h; rw [← h]; exact hn
  | cons a r ih =>
    obtain ⟨f, v, c⟩ := a
    intro dir dir' h n hn
    rw [saveAll] at h
    cases hs : save dir f v c with
    | none => rw [hs] at h; cases h
    | some d1 =>
      rw [hs] at h
      exact ih d1 dir' h n (save_isFile_mono dir d1 f v c hs n hn)

theorem clear_of_mono (dir dir' : Folder) (file : Text) (h : ∀ n, isFile dir n = true → isFile dir' n = true) (hc : ClearNames dir' file) :
    ClearNames dir file := by
  intro p hp h1 h2 h3 h4 h5 h6
  obtain ⟨x, hx⟩ := Option.isSome_iff_exists.mp h1
  have hf := h p.1 ((isFile_iff _ _).mpr ⟨x, by rw [← hx]; exact hp⟩)
  obtain ⟨y, hy⟩ := (isFile_iff _ _).mp hf
  exact hc (p.1, some y) hy rfl h2 h3 h4 h5 h6

/-- one save at a version above `d` leaves the file used at `d` as it was -/
theorem save_load (dir dir' : Folder) (base e : Text) (hc : NoLookAlike dir base e) (hc' : NoLookAlike dir' base e)
    (f : Text) (v d : Nat) (c : Text) (hvd : d < v) (hplain : descentName f v ≠ base ++ '.' :: e)
    (h : save dir f v c = some dir') : load dir' (base ++ '.' :: e) d = load dir (base ++ '.' :: e) d := by
  rcases save_cases _ _ _ _ _ h with h | ⟨rfl, _⟩
  case inr => rfl
  obtain ⟨w1, w2, w3, w4⟩ := write_read _ _ _ _ h
  -- no version up to d of the file is touched
  have huntouched : ∀ w, w ≤ d → descentName (base ++ '.' :: e) w ≠ descentName f v := by
    intro w hw heq
    rcases Nat.eq_zero_or_pos w with h0 | h0
    · subst h0; exact hplain heq.symm
    · have h1 := congrArg (split '.') heq
      rw [split_descentName _ _ h0, split_descentName _ _ (by omega)] at h1
      have h2 := congrArg (fun l : List Text => l.dropLast.getLast?) h1
      have hs : ∀ (l : List Text) (a b : Text), (l ++ [a, b]).dropLast.getLast? = some a := by
        intro l a b
        rw [show l ++ [a, b] = (l ++ [a]) ++ [b] by simp, List.dropLast_concat, List.getLast?_concat]
      simp only [hs] at h2
      injection h2 with h2
      have := showNat_inj h2
      omega
  have hver : ∀ w, w ≤ d → (HasVersion dir' (base ++ '.' :: e) w ↔ HasVersion dir (base ++ '.' :: e) w) := by
    intro w hw
    unfold HasVersion
    rw [(w3 _ (huntouched w hw)).2]
  have hin : base ++ '.' :: e ∈ dir'.map (·.1) ↔ base ++ '.' :: e ∈ dir.map (·.1) := by
    rw [w4]
    split
    · rfl
    · rw [List.mem_append]
      constructor
      · rintro (h | h)
        · exact h
        · rw [List.mem_singleton] at h; exact absurd h.symm hplain
      · exact .inl
  have hsame : near dir' (base ++ '.' :: e) d = near dir (base ++ '.' :: e) d := by
    rcases near_spec dir _ (dot_mem base e) hc d with ⟨a, ha, had, hamax, hn⟩ | ⟨hno, hn⟩ <;>
    rcases near_spec dir' _ (dot_mem base e) hc' d with ⟨b, hb, hbd, hbmax, hn'⟩ | ⟨hno', hn'⟩
    · have h1 := hamax b ((hver b hbd).mp hb) hbd
      have h2 := hbmax a ((hver a had).mpr ha) had
      have : a = b := by omega
      rw [hn, hn', this]
    · have := hno' a ((hver a had).mpr ha); omega
    · have := hno b ((hver b hbd).mp hb); omega
    · rw [hn, hn']
      by_cases hh : base ++ '.' :: e ∈ dir.map (·.1)
      · rw [if_pos hh, if_pos (hin.mpr hh)]
      · rw [if_neg hh, if_neg (fun x => hh (hin.mp x))]
  unfold load
  rw [hsame]
  cases hn : near dir (base ++ '.' :: e) d with
  | none => rfl
  | some n =>
    show read dir' n = read dir n
    refine (w3 n ?_).1
    rcases near_spec dir _ (dot_mem base e) hc d with ⟨a, ha, had, hamax, hn1⟩ | ⟨hno, hn1⟩
    · rw [hn1] at hn; injection hn with hn; rw [← hn]; exact huntouched a had
    · rw [hn1] at hn
      split at hn
      · injection hn with hn; rw [← hn]; exact fun x => hplain x.symm
      · cases hn

/-- **C19 (part)**: whatever is saved later at versions above `d` - of the same file or of others - the file used at `d` (and
at every version below) stays the same.  Missing: extraction first empties the folder (`C19_second_extraction_erases`),
and a file that first appears at a later version stops builds at `d` (`C19_new_file_stops_older_build`). -/
theorem C19_older_undisturbed_partial (hist : List (Text × Nat × Text)) (base e : Text) (d : Nat) :
    ∀ (dir dir' : Folder), saveAll dir hist = some dir' → NoLookAlike dir' base e →
    (∀ s ∈ hist, d < s.2.1 ∧ descentName s.1 s.2.1 ≠ base ++ '.' :: e) →
    ∀ d' ≤ d, load dir' (base ++ '.' :: e) d' = load dir (base ++ '.' :: e) d' := by
  induction hist with
  | nil => intro dir dir' h _ _ d' _; injection h with h; rw [h]
  | cons a r ih =>
    obtain ⟨f, v, c⟩ := a
    intro dir dir' h hc' hs d' hd'
    rw [saveAll] at h
    cases hsave : save dir f v c with
    | none => rw [hsave] at h; cases h
    | some d1 =>
      rw [hsave] at h
      have hc1 : NoLookAlike d1 base e := clear_of_mono d1 dir' _ (saveAll_isFile_mono r d1 dir' h) hc'
      have hc0 : NoLookAlike dir base e := clear_of_mono dir d1 _ (save_isFile_mono dir d1 f v c hsave) hc1
      have hfirst := hs (f, v, c) (by simp)
      rw [ih d1 dir' h hc' (fun s hs' => hs s (by simp [hs'])) d' hd',
        save_load dir d1 base e hc0 hc1 f v d' c (by have := hfirst.1; simp only at this; omega) hfirst.2 hsave]

/-- **C20, over histories**: after a save at `d` followed by any saves at later versions, building at `d` still uses that
content -/
theorem C20_saved_is_built_history (dir d1 dir' : Folder) (base e c : Text) (he : '.' ∉ e) (d : Nat) (hist : List (Text × Nat × Text))
    (h1 : save dir (base ++ '.' :: e) d c = some d1) (h2 : saveAll d1 hist = some dir') (hc : NoLookAlike dir' base e)
    (hlater : ∀ s ∈ hist, d < s.2.1 ∧ descentName s.1 s.2.1 ≠ base ++ '.' :: e) : load dir' (base ++ '.' :: e) d = some c := by
  have hc1 : NoLookAlike d1 base e := clear_of_mono d1 dir' _ (saveAll_isFile_mono hist d1 dir' h2) hc
  have hc0 : NoLookAlike dir base e := clear_of_mono dir d1 _ (save_isFile_mono dir d1 _ d c h1) hc1
  rw [C19_older_undisturbed_partial hist base e d d1 dir' h2 hc hlater d (Nat.le_refl d)]
  exact C20_saved_is_built dir d1 base e c he hc0 d h1

/-! ### C47: logical names of a folder -/

theorem listNames_go (l : Folder) : ∀ (acc : List (Option Text)), acc.Nodup →
    (l.foldl (fun acc p => let e := removeDescent p.1; if e ∈ acc then acc else acc ++ [e]) acc).Nodup ∧
    (∀ e, e ∈ l.foldl (fun acc p => let e := removeDescent p.1; if e ∈ acc then acc else acc ++ [e]) acc ↔
      e ∈ acc ∨ ∃ p ∈ l, removeDescent p.1 = e) := by
  induction l with
  | nil => intro acc h; exact ⟨h, by simp⟩
  | cons a r ih =>
    intro acc h
    rw [List.foldl_cons]
    simp only
    by_cases hm : removeDescent a.1 ∈ acc
    · rw [if_pos hm]
      obtain ⟨h1, h2⟩ := ih acc h
      refine ⟨h1, fun e => ?_⟩
      rw [h2]
      constructor
      · rintro (h | ⟨p, hp, he⟩)
        · exact .inl h
        · exact .inr ⟨p, by simp [hp], he⟩
      · rintro (h | ⟨p, hp, he⟩)
        · exact .inl h
        · rcases List.mem_cons.mp hp with rfl | hp
          · exact .inl (he ▸ hm)
          · exact .inr ⟨p, hp, he⟩
    · rw [if_neg hm]
      obtain ⟨h1, h2⟩ := ih (acc ++ [removeDescent a.1]) (by
        rw [List.nodup_append]
        refine ⟨h, by simp, ?_⟩
        intro x hx y hy
        rw [List.mem_singleton] at hy
        subst hy
        exact fun hh => hm (hh ▸ hx))
      refine ⟨h1, fun e => ?_⟩
      rw [h2, List.mem_append, List.mem_singleton]
      constructor
      · rintro ((h | h) | ⟨p, hp, he⟩)
        · exact .inl h
        · exact .inr ⟨a, by simp, h.symm⟩
        · exact .inr ⟨p, by simp [hp], he⟩
      · rintro (h | ⟨p, hp, he⟩)
        · exact .inl (.inl h)
        · rcases List.mem_cons.mp hp with rfl | hp
          · exact .inl (.inr he.symm)
          · exact .inr ⟨p, hp, he⟩

/-- **C47**: the files of a folder are presented under their logical names, each exactly once, however many versions there
are; no file is left out -/
theorem C47_logical_names (dir : Folder) :
    (listNames dir).Nodup ∧ ∀ e, e ∈ listNames dir ↔ ∃ n, isFile dir n = true ∧ removeDescent n = e := by
  obtain ⟨h1, h2⟩ := listNames_go (dir.filter (fun p => p.2.isSome)) [] List.nodup_nil
  refine ⟨h1, fun e => ?_⟩
  unfold listNames
  rw [h2]
  constructor
  · rintro (h | ⟨p, hp, he⟩)
    · cases h
    · rw [List.mem_filter] at hp
      obtain ⟨x, hx⟩ := Option.isSome_iff_exists.mp hp.2
      exact ⟨p.1, (isFile_iff _ _).mpr ⟨x, by rw [← hx]; exact hp.1⟩, he⟩
  · rintro ⟨n, hn, he⟩
    obtain ⟨x, hx⟩ := (isFile_iff _ _).mp hn
    exact .inr ⟨(n, some x), by rw [List.mem_filter]; exact ⟨hx, rfl⟩, he⟩

/-- **C47**: several versions of one file give one name -/
theorem C47_versions_one_name (dir : Folder) (base e : Text) (he : '.' ∉ e) (v w : Nat) (hv : 1 ≤ v) (hw : 1 ≤ w)
    (h1 : isFile dir (versionFile base e v) = true) (_h2 : isFile dir (versionFile base e w) = true) :
    (listNames dir).count (some (base ++ '.' :: e)) = 1 ∧
    removeDescent (versionFile base e v) = removeDescent (versionFile base e w) := by
  obtain ⟨hnd, hm⟩ := C47_logical_names dir
  refine ⟨?_, by rw [C21_suffix_removed_partial _ _ he v hv, C21_suffix_removed_partial _ _ he w hw]⟩
  rw [hnd.count, if_pos]
  exact (hm _).mpr ⟨_, h1, C21_suffix_removed_partial _ _ he v hv⟩

/-! ### what the code does not do -/

/-- **C19, false in full**: a file that exists only in versions above `d` makes the whole build at `d` fail, although the
product had been built at `d` before -/
theorem C19_new_file_stops_older_build (dir dir' : Folder) (base e c : Text) (he : '.' ∉ e) (hc : NoLookAlike dir base e) (d d2 : Nat)
    (hd : d < d2) (hnew : ∀ v, isFile dir (versionFile base e v) = false) (hn : base ++ '.' :: e ∉ dir.map (·.1))
    (h : save dir (base ++ '.' :: e) d2 c = some dir') : packFolder dir' d = none := by
  have hwrite : write dir (versionFile base e d2) c = some dir' := by
    rcases save_cases _ _ _ _ _ h with h | ⟨rfl, _, n, hnear, hr⟩
    · rw [descentName_base _ _ he] at h; exact h
    · rcases near_spec _ _ (dot_mem base e) hc d2 with ⟨a, ha, _, _, _⟩ | ⟨_, hh⟩
      · have := hnew a
        have h2 := ha.2
        rw [descentName_base _ _ he, this] at h2; cases h2
      · rw [hh, if_neg hn] at hnear; cases hnear
  obtain ⟨w1, w2, w3, w4⟩ := write_read _ _ _ _ hwrite
  have hc' : NoLookAlike dir' base e := write_clear dir dir' _ d2 (by omega) c hc (by rw [descentName_base _ _ he]; exact hwrite)
  have hne : versionFile base e d2 ≠ base ++ '.' :: e := by
    have := descentName_ne (base ++ '.' :: e) d2 (by omega)
    rwa [descentName_base _ _ he] at this
  have hload : load dir' (base ++ '.' :: e) d = none := by
    unfold load
    rcases near_spec dir' _ (dot_mem base e) hc' d with ⟨a, ha, had, _, _⟩ | ⟨_, hh⟩
    · exfalso
      have h2 := ha.2
      rw [descentName_base _ _ he] at h2
      have hna : versionFile base e a ≠ versionFile base e d2 := by
        intro hx
        rw [← descentName_base _ _ he, ← descentName_base _ _ he] at hx
        have := descentName_inj _ a d2 ha.1 (by omega) hx
        omega
      rw [(w3 _ hna).2, hnew a] at h2; cases h2
    · rw [hh, if_neg]
      rw [w4]
      split
      · exact hn
      · rw [List.mem_append, List.mem_singleton]
        rintro (hx | hx)
        · exact hn hx
        · exact hne hx.symm
  have hmem : some (base ++ '.' :: e) ∈ listNames dir' :=
    ((C47_logical_names dir').2 _).mpr ⟨_, w2, C21_suffix_removed_partial base e he d2 (by omega)⟩
  unfold packFolder
  revert hmem
  generalize listNames dir' = l
  intro hmem
  induction l with
  | nil => cases hmem
  | cons a r ih =>
    rw [List.mapM_cons]
    rcases List.mem_cons.mp hmem with rfl | hm
    · simp only [hload]; rfl
    · rw [ih hm]
      cases a with
      | none => rfl
      | some n =>
        simp only
        cases load dir' n d <;> rfl

theorem unpack_files (files : List (Text × Text)) (d : Nat) : ∀ (dir dir' : Folder),
    files.foldlM (fun dir f => save dir f.1 d f.2) dir = some dir' →
    ∀ n, isFile dir' n = true → isFile dir n = true ∨ ∃ f ∈ files, n = descentName f.1 d := by
  induction files with
  | nil => intro dir dir' h n hn; injection h with h; exact .inl (h ▸ hn)
  | cons a r ih =>
    intro dir dir' h n hn
    rw [List.foldlM_cons] at h
    cases hs : save dir a.1 d a.2 with
    | none => rw [hs] at h; cases h
    | some d1 =>
      rw [hs] at h
      rcases ih d1 dir' h n hn with h1 | ⟨f, hf, he⟩
      · rcases save_cases _ _ _ _ _ hs with hw | ⟨rfl, _⟩
        · by_cases hx : n = descentName a.1 d
          · exact .inr ⟨a, by simp, hx⟩
          · rw [((write_read _ _ _ _ hw).2.2.1 n hx).2] at h1
            exact .inl h1
        · exact .inl h1
      · exact .inr ⟨f, by simp [hf], he⟩

/-- **C46, false of the code**: after an extraction at version `d` the folder holds nothing but files of version `d`: a file
of any other version that was there is gone -/
theorem C46_other_versions_erased (dir dir' : Folder) (files : List (Text × Text)) (d : Nat) (h : unpackFolder dir files d = some dir') :
    ∀ n, isFile dir' n = true → ∃ f ∈ files, n = descentName f.1 d := by
  intro n hn
  rcases unpack_files files d [] dir' h n hn with h1 | h1
  · cases h1
  · exact h1

/-- **C46 / C19, false of the code**: whatever the folder held at version `d`, an extraction of the same file at a later
version leaves nothing to build version `d` from -/
theorem C19_second_extraction_erases (dir dir' : Folder) (base e c : Text) (he : '.' ∉ e) (d d2 : Nat) (hd : d < d2)
    (h : unpackFolder dir [(base ++ '.' :: e, c)] d2 = some dir') : load dir' (base ++ '.' :: e) d = none := by
  have hx : save [] (base ++ '.' :: e) d2 c = some dir' := by
    unfold unpackFolder at h
    rw [List.foldlM_cons] at h
    cases hs : save [] (base ++ '.' :: e) d2 c with
    | none => simp only [hs] at h; cases h
    | some d1 => simp only [hs] at h; exact h
  have hp := C19_new_file_stops_older_build [] dir' base e c he (by intro p hp; cases hp) d d2 hd (fun _ => rfl) (by simp) hx
  -- the only name listed is this one
  cases hl : load dir' (base ++ '.' :: e) d with
  | none => rfl
  | some x =>
    exfalso
    obtain ⟨hnd, hm⟩ := C47_logical_names dir'
    have hall : ∀ y ∈ listNames dir', y = some (base ++ '.' :: e) := by
      intro y hy
      obtain ⟨n, hn, hr⟩ := (hm y).mp hy
      obtain ⟨f, hf, hn2⟩ := C46_other_versions_erased dir dir' _ d2 h n hn
      rw [List.mem_singleton] at hf
      subst hf
      rw [hn2, descentName_base _ _ he, C21_suffix_removed_partial _ _ he d2 (by omega)] at hr
      exact hr.symm
    have : ∀ l : List (Option Text), (∀ y ∈ l, y = some (base ++ '.' :: e)) → (l.mapM (fun e => match e with
        | none => none
        | some n => (load dir' n d).map (fun c => (n, c)))) ≠ none := by
      intro l
      induction l with
      | nil => intro _ hh; cases hh
      | cons a r ih =>
        intro ha hh
        rw [List.mapM_cons, ha a (by simp)] at hh
        simp only [hl] at hh
        cases hr : (r.mapM (fun e => match e with
          | none => none
          | some n => (load dir' n d).map (fun c => (n, c)))) with
        | none => exact ih (fun y hy => ha y (by simp [hy])) hr
        | some z => rw [hr] at hh; cases hh
    exact this _ hall hp

/-! ### concrete folders that meet the hypotheses -/

/-- a folder with two versions and a plain file -/
def sampleDir : Folder := [("Form.json".toList, some "a".toList), ("Form.5.json".toList, some "b".toList), ("Form.9.json".toList, some "c".toList),
  ("Other.5.json".toList, some "x".toList), ("sub".toList, none)]

set_option maxRecDepth 8000 in
theorem sample_clear : NoLookAlike sampleDir "Form".toList "json".toList := by
  intro p hp h1 h2 h3 h4 h5 h6
  rcases List.mem_cons.mp hp with rfl | hp
  · exact absurd rfl h2
  rcases List.mem_cons.mp hp with rfl | hp
  · exact ⟨5, by decide, by decide +kernel⟩
  rcases List.mem_cons.mp hp with rfl | hp
  · exact ⟨9, by decide, by decide +kernel⟩
  rcases List.mem_cons.mp hp with rfl | hp
  · exfalso; revert h3; decide +kernel
  · rw [List.mem_singleton] at hp; subst hp; cases h1

example : near sampleDir ("Form".toList ++ '.' :: "json".toList) 7 = some "Form.5.json".toList := by decide +kernel
example : near sampleDir ("Form".toList ++ '.' :: "json".toList) 4 = some "Form.json".toList := by decide +kernel
example : near sampleDir ("Form".toList ++ '.' :: "json".toList) 100 = some "Form.9.json".toList := by decide +kernel
example : save sampleDir ("Form".toList ++ '.' :: "json".toList) 7 "b".toList = some sampleDir := by decide +kernel
example : (save sampleDir ("Form".toList ++ '.' :: "json".toList) 7 "z".toList).isSome = true := by decide +kernel
/-- a history as `C19_older_undisturbed_partial` quantifies over -/
example : ∃ dir', saveAll sampleDir [("Form.json".toList, 9, "q".toList), ("New.json".toList, 8, "w".toList)] = some dir' ∧
    load dir' "Form.json".toList 7 = some "b".toList := by
  refine ⟨sampleDir.map (fun p => if p.1 = "Form.9.json".toList then ("Form.9.json".toList, some "q".toList) else p) ++ [("New.8.json".toList, some "w".toList)], ?_, ?_⟩ <;> decide +kernel
/-- the sibling of `C18_sibling_confused` -/
example : near [("Form2.5.json".toList, some "x".toList)] "Form.json".toList 7 = some "Form.5.json".toList := by decide +kernel
example : unpackFolder sampleDir [("Form.json".toList, "n".toList)] 12 = some [("Form.12.json".toList, some "n".toList)] := by decide +kernel

end V8.Descent
