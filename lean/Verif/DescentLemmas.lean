import Verif.Descent
namespace V8.Descent
open V8.Str V8.Dec

/-- Every file of the folder that could be taken for a version of `file` (it begins with the same stem, ends in the same
extension, has one dot part more, and a number before the extension) is one: its name is `file` with a version inserted. -/
def ClearNames (dir : Folder) (file : Text) : Prop :=
  ∀ p ∈ dir, p.2.isSome = true → p.1 ≠ file → stem file <+: p.1 → ext file <:+ p.1 →
    (split '.' p.1).length = (split '.' file).length + 1 →
    parseInt ((split '.' p.1).dropLast.getLast?.getD []) ≠ none → ∃ v, 1 ≤ v ∧ p.1 = descentName file v

/-- the folder holds version `v` of `file` -/
def HasVersion (dir : Folder) (file : Text) (v : Nat) : Prop := 1 ≤ v ∧ isFile dir (descentName file v) = true

theorem join_append (d : Char) (a b : List Text) (ha : a ≠ []) (hb : b ≠ []) : join d (a ++ b) = join d a ++ d :: join d b := by
  induction a with
  | nil => exact absurd rfl ha
  | cons x a ih =>
    cases a with
    | nil =>
      cases b with
      | nil => exact absurd rfl hb
      | cons y b => simp [join]
    | cons z a =>
      have := ih (by simp)
      simp only [List.cons_append] at this
      simp only [List.cons_append, join, this, List.append_assoc]

theorem parts_eq (file : Text) : split '.' file = (split '.' file).dropLast ++ [ext file] := by
  have h := split_ne '.' file
  unfold ext
  rw [List.getLast?_eq_some_getLast h, Option.getD_some, List.dropLast_concat_getLast]

theorem split_two' (d : Char) (s : Text) (h : d ∈ s) : (split d s).dropLast ≠ [] := by
  cases hsp : split d s with
  | nil => exact absurd hsp (split_ne _ _)
  | cons x r =>
    cases r with
    | nil =>
      have hj := join_split d s
      rw [hsp] at hj
      simp only [join] at hj
      have := split_mem d s x (by rw [hsp]; simp)
      rw [hj] at this
      exact absurd h this
    | cons y r => simp

theorem ext_noDot (file : Text) : '.' ∉ ext file := by
  apply split_mem '.' file
  rw [parts_eq file]; simp

theorem file_eq (file : Text) (h : '.' ∈ file) : file = stem file ++ '.' :: ext file := by
  have := join_split '.' file
  rw [parts_eq file, join_append _ _ _ (split_two' _ _ h) (by simp)] at this
  exact this.symm

theorem descentName_eq (file : Text) (h : '.' ∈ file) (v : Nat) (hv : 1 ≤ v) :
    descentName file v = stem file ++ '.' :: showNat v ++ '.' :: ext file := by
  unfold descentName
  rw [if_neg (by omega), join_append _ _ _ (split_two' _ _ h) (by simp)]
  simp [join, stem]

theorem split_descentName (file : Text) (v : Nat) (hv : 1 ≤ v) :
    split '.' (descentName file v) = (split '.' file).dropLast ++ [showNat v, ext file] := by
  unfold descentName
  rw [if_neg (by omega), split_join _ _ (by simp)]
  intro p hp
  rcases List.mem_append.mp hp with hp | hp
  · exact split_mem '.' file p (List.dropLast_subset _ hp)
  · simp only [List.mem_cons, List.not_mem_nil, or_false] at hp
    rcases hp with rfl | rfl
    · exact showNat_noDot v
    · exact ext_noDot file

theorem descentName_inj (file : Text) (v w : Nat) (hv : 1 ≤ v) (hw : 1 ≤ w) (h : descentName file v = descentName file w) : v = w := by
  have := congrArg (split '.') h
  rw [split_descentName file v hv, split_descentName file w hw] at this
  have := List.append_cancel_left this
  simp only [List.cons.injEq, and_true] at this
  exact showNat_inj this

theorem descentName_ne (file : Text) (v : Nat) (hv : 1 ≤ v) : descentName file v ≠ file := by
  intro h
  have := congrArg (fun s => (split '.' s).length) h
  simp only [split_descentName file v hv] at this
  conv at this => rhs; rw [parts_eq file]
  simp at this

theorem starts_iff (p s : Text) : starts p s = true ↔ p <+: s := by
  unfold starts; exact List.isPrefixOf_iff_prefix
theorem ends_iff (p s : Text) : ends p s = true ↔ p <:+ s := by
  unfold ends; exact List.isSuffixOf_iff_suffix

theorem isFile_iff (dir : Folder) (name : Text) : isFile dir name = true ↔ ∃ c, (name, some c) ∈ dir := by
  unfold isFile
  rw [List.any_eq_true]
  constructor
  · rintro ⟨⟨n, c⟩, hp, h⟩
    simp only [decide_eq_true_eq] at h
    obtain ⟨h1, h2⟩ := h
    obtain ⟨c', rfl⟩ := Option.isSome_iff_exists.mp h2
    exact ⟨c', by rw [← h1]; exact hp⟩
  · rintro ⟨c, h⟩
    exact ⟨_, h, by simp⟩

theorem versionsOf_mem (dir : Folder) (file : Text) (hdot : '.' ∈ file) (hc : ClearNames dir file) (x : Int) :
    x ∈ versionsOf dir file ↔ ∃ v : Nat, x = v ∧ HasVersion dir file v := by
  unfold versionsOf
  rw [List.mem_filterMap]
  constructor
  · rintro ⟨p, hp, h⟩
    simp only at h
    split at h
    · rename_i hse
      split at h
      · cases h
      · rename_i hne
        split at h
        · cases h
        · rename_i hlen
          split at h
          · rename_i hsome
            rw [Bool.and_eq_true, starts_iff, ends_iff] at hse
            have hl : (split '.' p.1).length = (split '.' file).length + 1 := by
              have := List.length_pos_iff.mpr (split_ne '.' p.1)
              simp only [ne_eq, Decidable.not_not] at hlen
              omega
            obtain ⟨v, hv, hpv⟩ := hc p hp hsome hne hse.1 hse.2 hl (by rw [h]; simp)
            refine ⟨v, ?_, hv, ?_⟩
            · rw [hpv, split_descentName file v hv] at h
              have e : ((split '.' file).dropLast ++ [showNat v, ext file]).dropLast.getLast?.getD [] = showNat v := by
                rw [show (split '.' file).dropLast ++ [showNat v, ext file] = ((split '.' file).dropLast ++ [showNat v]) ++ [ext file] by simp]
                rw [List.dropLast_concat]; simp
              rw [e, parse_showNat] at h
              injection h with h; exact h.symm
            · rw [isFile_iff]
              obtain ⟨c, hc⟩ := Option.isSome_iff_exists.mp hsome
              exact ⟨c, by rw [← hpv, ← hc]; exact hp⟩
          · cases h
    · cases h
  · rintro ⟨v, rfl, hv, hf⟩
    rw [isFile_iff] at hf
    obtain ⟨c, hf⟩ := hf
    refine ⟨_, hf, ?_⟩
    simp only
    have h1 : starts (stem file) (descentName file v) = true := by
      rw [starts_iff, descentName_eq file hdot v hv]
      exact ⟨'.' :: showNat v ++ '.' :: ext file, by simp⟩
    have h2 : ends (ext file) (descentName file v) = true := by
      rw [ends_iff, descentName_eq file hdot v hv]
      exact ⟨stem file ++ '.' :: showNat v ++ ['.'], by simp⟩
    rw [h1, h2]
    simp only [Bool.and_self, if_true]
    rw [if_neg (descentName_ne file v hv), split_descentName file v hv, if_neg]
    · have e : ((split '.' file).dropLast ++ [showNat v, ext file]).dropLast.getLast?.getD [] = showNat v := by
        rw [show (split '.' file).dropLast ++ [showNat v, ext file] = ((split '.' file).dropLast ++ [showNat v]) ++ [ext file] by simp]
        rw [List.dropLast_concat]; simp
      rw [e, parse_showNat]; rfl
    · conv => rhs; rhs; rw [parts_eq file]
      simp

theorem hasPlain_iff (dir : Folder) (file : Text) (hdot : '.' ∈ file) : hasPlain dir file = true ↔ file ∈ dir.map (·.1) := by
  unfold hasPlain
  rw [List.any_eq_true]
  simp only [Bool.and_eq_true, decide_eq_true_eq, List.mem_map]
  constructor
  · rintro ⟨p, hp, _, h⟩; exact ⟨p, hp, h⟩
  · rintro ⟨p, hp, h⟩
    refine ⟨p, hp, ?_, h⟩
    rw [h, starts_iff, ends_iff]
    have := file_eq file hdot
    exact ⟨⟨'.' :: ext file, this.symm⟩, ⟨stem file ++ ['.'], by rw [List.append_assoc]; exact this.symm⟩⟩

theorem bestOf_spec (d : Nat) (l : List Int) (hpos : ∀ x ∈ l, 1 ≤ x) :
    (l = [] ∧ bestOf d l = none) ∨
    (∃ x ∈ l, bestOf d l = some x ∧ ((x ≤ d ∧ ∀ y ∈ l, y ≤ d → y ≤ x) ∨ (d < x ∧ ∀ y ∈ l, (d : Int) < y))) := by
  induction l with
  | nil => left; exact ⟨rfl, rfl⟩
  | cons a l ih =>
    right
    have ha := hpos a (by simp)
    rw [bestOf]
    rcases ih (fun x hx => hpos x (by simp [hx])) with ⟨h1, h2⟩ | ⟨x, hx, h2, h3⟩
    · subst h1
      rw [h2]
      refine ⟨a, by simp, rfl, ?_⟩
      by_cases h : a ≤ d
      · left; refine ⟨h, ?_⟩; intro y hy _; simp at hy; omega
      · right; refine ⟨by omega, ?_⟩; intro y hy; simp at hy; omega
    · rw [h2]
      simp only
      have hxp := hpos x (by simp [hx])
      unfold sortKey
      rcases h3 with ⟨h3, h4⟩ | ⟨h3, h4⟩
      · by_cases hak : a ≤ (d : Int)
        · rw [if_neg (by omega : ¬ x > (d : Int)), if_neg (by omega : ¬ a > (d : Int))]
          by_cases hlt : x > a
          · rw [if_pos hlt]
            refine ⟨x, by simp [hx], rfl, .inl ⟨h3, ?_⟩⟩
            intro y hy hyd
            rcases List.mem_cons.mp hy with rfl | hy
            · omega
            · exact h4 y hy hyd
          · rw [if_neg hlt]
            refine ⟨a, by simp, rfl, .inl ⟨hak, ?_⟩⟩
            intro y hy hyd
            rcases List.mem_cons.mp hy with rfl | hy
            · omega
            · have := h4 y hy hyd; omega
        · rw [if_neg (by omega : ¬ x > (d : Int)), if_pos (by omega : a > (d : Int)), if_pos (by omega)]
          refine ⟨x, by simp [hx], rfl, .inl ⟨h3, ?_⟩⟩
          intro y hy hyd
          rcases List.mem_cons.mp hy with rfl | hy
          · omega
          · exact h4 y hy hyd
      · by_cases hak : a ≤ (d : Int)
        · rw [if_pos (by omega : x > (d : Int)), if_neg (by omega : ¬ a > (d : Int)), if_neg (by omega)]
          refine ⟨a, by simp, rfl, .inl ⟨hak, ?_⟩⟩
          intro y hy hyd
          rcases List.mem_cons.mp hy with rfl | hy
          · omega
          · have := h4 y hy; omega
        · rw [if_pos (by omega : x > (d : Int)), if_pos (by omega : a > (d : Int)), if_neg (by omega)]
          refine ⟨a, by simp, rfl, .inr ⟨by omega, ?_⟩⟩
          intro y hy
          rcases List.mem_cons.mp hy with rfl | hy
          · omega
          · exact h4 y hy

/-- the two cases of the resolution -/
theorem near_spec (dir : Folder) (file : Text) (hdot : '.' ∈ file) (hc : ClearNames dir file) (d : Nat) :
    (∃ v, HasVersion dir file v ∧ v ≤ d ∧ (∀ w, HasVersion dir file w → w ≤ d → w ≤ v) ∧ near dir file d = some (descentName file v)) ∨
    ((∀ w, HasVersion dir file w → d < w) ∧ near dir file d = if file ∈ dir.map (·.1) then some file else none) := by
  have hmem := versionsOf_mem dir file hdot hc
  have hpos : ∀ x ∈ versionsOf dir file, 1 ≤ x := by
    intro x hx
    obtain ⟨v, rfl, hv⟩ := (hmem x).mp hx
    have := hv.1; omega
  have hplain : (if hasPlain dir file then some file else none) = if file ∈ dir.map (·.1) then some file else none := by
    by_cases h : file ∈ dir.map (·.1)
    · rw [if_pos h, if_pos ((hasPlain_iff dir file hdot).mpr h)]
    · rw [if_neg h, if_neg (fun hh => h ((hasPlain_iff dir file hdot).mp hh))]
  unfold near
  rcases bestOf_spec d _ hpos with ⟨h1, h2⟩ | ⟨x, hx, h2, h3⟩
  · right
    rw [h2]
    refine ⟨?_, hplain⟩
    intro w hw
    have := (hmem w).mpr ⟨w, rfl, hw⟩
    rw [h1] at this; cases this
  · rw [h2]
    simp only
    obtain ⟨v, rfl, hv⟩ := (hmem x).mp hx
    rcases h3 with ⟨h3, h4⟩ | ⟨h3, h4⟩
    · left
      refine ⟨v, hv, by omega, ?_, ?_⟩
      · intro w hw hwd
        have := h4 w ((hmem w).mpr ⟨w, rfl, hw⟩) (by omega)
        omega
      · rw [if_neg (by omega), descentName_eq file hdot v hv.1]; rfl
    · right
      rw [if_pos (by omega)]
      refine ⟨?_, hplain⟩
      intro w hw
      have := h4 w ((hmem w).mpr ⟨w, rfl, hw⟩)
      omega

/-! ### reading and writing -/

/-- names in a folder are distinct -/
def Distinct (dir : Folder) : Prop := (dir.map (·.1)).Nodup

theorem read_mem (dir : Folder) (hd : Distinct dir) (n c : Text) (h : (n, some c) ∈ dir) : read dir n = some c := by
  unfold read
  induction dir with
  | nil => cases h
  | cons p dir ih =>
    unfold Distinct at hd
    rw [List.map_cons, List.nodup_cons] at hd
    rcases List.mem_cons.mp h with rfl | h
    · simp
    · rw [List.find?_cons_of_neg]
      · exact ih hd.2 h
      · simp only [decide_eq_true_eq]
        rintro rfl
        exact hd.1 (List.mem_map_of_mem (f := (·.1)) h)

theorem write_read (dir dir' : Folder) (n c : Text) (h : write dir n c = some dir') :
    read dir' n = some c ∧ isFile dir' n = true ∧ (∀ m, m ≠ n → read dir' m = read dir m ∧ isFile dir' m = isFile dir m) ∧
    dir'.map (·.1) = (if n ∈ dir.map (·.1) then dir.map (·.1) else dir.map (·.1) ++ [n]) := by
  unfold write at h
  split at h
  · cases h
  · split at h
    · rename_i hn hex
      injection h with h; subst h
      have hmap : (dir.map (fun p => if p.1 = n then (n, some c) else p)).map (·.1) = dir.map (·.1) := by
        rw [List.map_map]; apply List.map_congr_left; intro p _; simp only [Function.comp]; split <;> simp_all
      have hmem : n ∈ dir.map (·.1) := by
        rw [List.any_eq_true] at hex
        obtain ⟨p, hp, he⟩ := hex
        have : p.1 = n := by simpa using he
        rw [← this]; exact List.mem_map_of_mem hp
      refine ⟨?_, ?_, ?_, by rw [if_pos hmem]; exact hmap⟩
      · clear hmap hex hn
        induction dir with
        | nil => simp at hmem
        | cons p dir ih =>
          unfold read
          by_cases hp : p.1 = n
          · simp [hp]
          · rw [List.map_cons, if_neg hp, List.find?_cons_of_neg (by simpa using hp)]
            apply ih
            simp only [List.map_cons, List.mem_cons] at hmem
            rcases hmem with h | h
            · exact absurd h.symm hp
            · exact h
      · rw [isFile_iff]
        obtain ⟨p, hp, he⟩ := List.mem_map.mp hmem
        exact ⟨c, List.mem_map.mpr ⟨p, hp, by rw [if_pos he]⟩⟩
      · intro m hm
        constructor
        · unfold read
          clear hmap hex hn hmem
          induction dir with
          | nil => rfl
          | cons p dir ih =>
            rw [List.map_cons]
            by_cases hp : p.1 = n
            · rw [if_pos hp, List.find?_cons_of_neg (by simpa using Ne.symm hm), List.find?_cons_of_neg (by rw [hp]; simpa using Ne.symm hm)]
              exact ih
            · rw [if_neg hp]
              by_cases hpm : p.1 = m
              · rw [List.find?_cons_of_pos (by simpa using hpm), List.find?_cons_of_pos (by simpa using hpm)]
              · rw [List.find?_cons_of_neg (by simpa using hpm), List.find?_cons_of_neg (by simpa using hpm)]
                exact ih
        · rw [Bool.eq_iff_iff, isFile_iff, isFile_iff]
          constructor
          · rintro ⟨x, hx⟩
            obtain ⟨p, hp, he⟩ := List.mem_map.mp hx
            split at he
            · simp only [Prod.mk.injEq] at he; exact absurd he.1.symm hm
            · exact ⟨x, by rw [← he]; exact hp⟩
          · rintro ⟨x, hx⟩
            exact ⟨x, List.mem_map.mpr ⟨_, hx, by rw [if_neg hm]⟩⟩
    · rename_i hn hex
      injection h with h; subst h
      have hmem : n ∉ dir.map (·.1) := by
        intro hm
        obtain ⟨p, hp, he⟩ := List.mem_map.mp hm
        apply hex
        rw [List.any_eq_true]
        exact ⟨p, hp, by simpa using he⟩
      refine ⟨?_, ?_, ?_, by rw [if_neg hmem]; simp⟩
      · unfold read
        rw [List.find?_append]
        have : dir.find? (fun p => p.1 = n) = none := by
          rw [List.find?_eq_none]
          intro p hp he
          exact hmem (by have : p.1 = n := by simpa using he
                         rw [← this]; exact List.mem_map_of_mem hp)
        rw [this]; simp
      · rw [isFile_iff]; exact ⟨c, by simp⟩
      · intro m hm
        constructor
        · unfold read
          rw [List.find?_append]
          have : [(n, some c)].find? (fun p => p.1 = m) = none := by
            simp [List.find?, Ne.symm hm]
          rw [this]; simp
        · rw [Bool.eq_iff_iff, isFile_iff, isFile_iff]
          constructor
          · rintro ⟨x, hx⟩
            rcases List.mem_append.mp hx with hx | hx
            · exact ⟨x, hx⟩
            · simp only [List.mem_singleton, Prod.mk.injEq] at hx; exact absurd hx.1 hm
          · rintro ⟨x, hx⟩; exact ⟨x, List.mem_append_left _ hx⟩

theorem write_clear (dir dir' : Folder) (file : Text) (v : Nat) (hv : 1 ≤ v) (c : Text) (hc : ClearNames dir file)
    (h : write dir (descentName file v) c = some dir') : ClearNames dir' file := by
  intro p hp h1 h2 h3 h4 h5 h6
  by_cases hn : p.1 = descentName file v
  · exact ⟨v, hv, hn⟩
  · obtain ⟨x, hx⟩ := Option.isSome_iff_exists.mp h1
    have hf : isFile dir' p.1 = true := (isFile_iff _ _).mpr ⟨x, by rw [← hx]; exact hp⟩
    rw [((write_read dir dir' _ c h).2.2.1 p.1 hn).2, isFile_iff] at hf
    obtain ⟨y, hy⟩ := hf
    exact hc (p.1, some y) hy rfl h2 h3 h4 h5 h6

theorem save_cases (dir dir' : Folder) (file : Text) (d : Nat) (c : Text) (h : save dir file d c = some dir') :
    write dir (descentName file d) c = some dir' ∨
    (dir' = dir ∧ isFile dir (descentName file d) = false ∧ ∃ n, near dir file d = some n ∧ read dir n = some c) := by
  unfold save at h
  split at h
  · exact .inl h
  · rename_i hf
    split at h
    · exact .inl h
    · rename_i n hn
      split at h
      · cases h
      · rename_i old hold
        split at h
        · rename_i heq
          injection h with h
          right
          exact ⟨h.symm, by simpa using hf, n, hn, by rw [hold, heq]⟩
        · exact .inl h

end V8.Descent
