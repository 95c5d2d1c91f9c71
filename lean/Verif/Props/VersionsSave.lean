import Verif.Props.VersionsBack
/-
C20, C19: saving a file at a version beside older versions of it, on a whole disk: what is saved, what is not, and what the build then takes.
-/
namespace V8.Versions
open V8.Str V8.Enc V8.Dec V8.Code V8.Brace V8.Descent
open V8.Org (Sys Content World Item Write isCode isElem put puts clear txt texts forms tasks areasOf ModuleOk FormOk codeAreas elemAreas Ready)

variable {V : Type}

/-- the two lists of a folder that shows the same files find the same version -/
theorem near_same {dir dir' : Folder} {base e : Text} (he : '.' ∉ e) (hc : NoLookAlike dir base e) (hc' : NoLookAlike dir' base e)
    (hf : (base ++ '.' :: e, none) ∉ dir) (hf' : (base ++ '.' :: e, none) ∉ dir') (hs : ∀ n, isFile dir' n = isFile dir n) (d : Nat) :
    near dir' (base ++ '.' :: e) d = near dir (base ++ '.' :: e) d := by
  rcases C18_newest_not_newer_partial dir base e he hc hf d with ⟨v, h1, h2, h3, h4⟩ | ⟨h1, h2⟩ <;>
    rcases C18_newest_not_newer_partial dir' base e he hc' hf' d with ⟨v', k1, k2, k3, k4⟩ | ⟨k1, k2⟩
  · have a := k3 v h1 (by rw [hs]; exact h2)
    have b := h3 v' k1 (by rw [← hs]; exact k2)
    rw [h4, k4, Nat.le_antisymm a b]
  · rw [← hs, k1 v h1] at h2
    cases h2
  · rw [hs, h1 v' k1] at k2
    cases k2
  · rw [h2, k2]

/-- **C19, C20 on a disk.**  One file is saved at version `d` in a folder that may hold other versions of it.  Either it is written under the name of version `d`, or nothing
changes because the newest version that is not newer compares equal; no other file changes; and a build at version `d` takes the new content or the content that compared equal. -/
theorem C20_save_on_disk (s : Sys) (d : Nat) (w w' : World V) (dir dir' : Folder) (x : Put V) (base e : Text) (hn : x.file.2 = base ++ '.' :: e) (he : '.' ∉ e)
    (hin : inside s x.file.1 = true) (hv : Shows w x.file.1 dir) (hs : saveOne s d w w dir x = some w') (hv' : Shows w' x.file.1 dir')
    (hc : NoLookAlike dir base e) (hc' : NoLookAlike dir' base e) (hf : (base ++ '.' :: e, none) ∉ dir) (hf' : (base ++ '.' :: e, none) ∉ dir') :
    (∀ f, f ≠ (x.file.1, versionFile base e d) → w' f = w f) ∧
    ∃ m c, near dir' x.file.2 d = some m ∧ w' (x.file.1, m) = some c ∧
      (c = x.content ∨ (w' = w ∧ w (x.file.1, versionFile base e d) = none ∧ x.same c = some true)) := by
  have key : ∀ w1, w1 = put w ((x.file.1, versionFile base e d), x.content) → w' = w1 → (∀ f, f ≠ (x.file.1, versionFile base e d) → w' f = w f) ∧
      ∃ m c, near dir' x.file.2 d = some m ∧ w' (x.file.1, m) = some c ∧ (c = x.content ∨ (w' = w ∧ w (x.file.1, versionFile base e d) = none ∧ x.same c = some true)) := by
    rintro _ rfl rfl
    have hw : (put w ((x.file.1, versionFile base e d), x.content)) (x.file.1, versionFile base e d) = some x.content := if_pos rfl
    refine ⟨fun f hf => if_neg hf, versionFile base e d, x.content, ?_, hw, .inl rfl⟩
    have hfile : isFile dir' (versionFile base e d) = true := (hv'.1 _).mpr (by rw [hw]; exact fun h => by cases h)
    rw [hn]
    rcases C18_newest_not_newer_partial dir' base e he hc' hf' d with ⟨v, h1, _, h3, h4⟩ | ⟨h1, _⟩
    · rw [h4, Nat.le_antisymm h1 (h3 d (Nat.le_refl _) hfile)]
    · rw [h1 d (Nat.le_refl _)] at hfile
      cases hfile
  unfold saveOne at hs
  rw [if_pos hin] at hs
  unfold saveName at hs
  rw [hn, descentName_base _ _ he] at hs
  by_cases h1 : isFile dir (versionFile base e d) = true
  · rw [if_pos h1] at hs
    exact key _ rfl (Option.some.inj hs).symm
  · rw [if_neg h1] at hs
    cases hnear : near dir (base ++ '.' :: e) d with
    | none =>
      rw [hnear] at hs
      exact key _ rfl (Option.some.inj hs).symm
    | some m =>
      rw [hnear] at hs
      simp only at hs
      cases hold : w (x.file.1, m) with
      | none => rw [hold] at hs; cases hs
      | some old =>
        rw [hold] at hs
        simp only at hs
        cases hsame : x.same old with
        | none => rw [hsame] at hs; cases hs
        | some b =>
          rw [hsame] at hs
          cases b with
          | false => exact key _ rfl (Option.some.inj hs).symm
          | true =>
            have hw : w' = w := (Option.some.inj hs).symm
            subst hw
            refine ⟨fun _ _ => rfl, m, old, ?_, hold, .inr ⟨rfl, ?_, hsame⟩⟩
            · rw [hn, ← hnear]
              refine near_same he hc hc' hf hf' (fun n => ?_) d
              rw [Bool.eq_iff_iff, hv.1, hv'.1]
            · cases h2 : w' (x.file.1, versionFile base e d) with
              | none => rfl
              | some c => exact absurd ((hv.1 _).mpr (by rw [h2]; exact fun h => by cases h)) h1

open Classical in
theorem sameBytes_true {c old : Content V} (h : sameBytes c old = some true) : old = c := by
  unfold sameBytes at h
  exact of_decide_eq_true (Option.some.inj h)

open Classical in
theorem sameBytes_self (c : Content V) : sameBytes c c = some true := by
  unfold sameBytes
  exact congrArg some (decide_eq_true rfl)

open Classical in
theorem sameBytes_ne {c old : Content V} (h : old ≠ c) : sameBytes c old = some false := by
  unfold sameBytes
  exact congrArg some (decide_eq_false h)

/-- **C20, files that are no modules.**  What was saved at version `d` is what a build at version `d` takes. -/
theorem C20_bytes_on_disk (s : Sys) (d : Nat) (w w' : World V) (dir dir' : Folder) (f : Dir × Text) (content : Content V) (base e : Text) (hn : f.2 = base ++ '.' :: e)
    (he : '.' ∉ e) (hin : inside s f.1 = true) (hv : Shows w f.1 dir) (hs : saveOne s d w w dir ⟨f, content, sameBytes content⟩ = some w') (hv' : Shows w' f.1 dir')
    (hc : NoLookAlike dir base e) (hc' : NoLookAlike dir' base e) (hf : (base ++ '.' :: e, none) ∉ dir) (hf' : (base ++ '.' :: e, none) ∉ dir') :
    ∃ m, near dir' f.2 d = some m ∧ w' (f.1, m) = some content := by
  obtain ⟨_, m, c, h1, h2, h3⟩ := C20_save_on_disk s d w w' dir dir' _ base e hn he hin hv hs hv' hc hc' hf hf'
  refine ⟨m, h1, h2.trans ?_⟩
  rcases h3 with h | ⟨_, _, h⟩
  · rw [h]
  · rw [sameBytes_true h]

/-- **C20, modules.**  What was saved at version `d` is what a build at version `d` takes: the same bytes, or bytes of an older version that are read as the same text. -/
theorem C20_module_on_disk (s : Sys) (d : Nat) (w w' : World V) (dir dir' : Folder) (f : Dir × Text) (t : Text) (base e : Text) (hn : f.2 = base ++ '.' :: e)
    (he : '.' ∉ e) (hin : inside s f.1 = true) (hv : Shows w f.1 dir) (hs : saveOne s d w w dir ⟨f, txt s t, sameText t⟩ = some w') (hv' : Shows w' f.1 dir')
    (hc : NoLookAlike dir base e) (hc' : NoLookAlike dir' base e) (hf : (base ++ '.' :: e, none) ∉ dir) (hf' : (base ++ '.' :: e, none) ∉ dir') :
    ∃ m c, near dir' f.2 d = some m ∧ w' (f.1, m) = some c ∧ (c = txt s t ∨ ∃ b u, c = .bytes b ∧ utf8SigText b = some u ∧ universal u = t) := by
  obtain ⟨_, m, c, h1, h2, h3⟩ := C20_save_on_disk s d w w' dir dir' _ base e hn he hin hv hs hv' hc hc' hf hf'
  refine ⟨m, c, h1, h2, ?_⟩
  rcases h3 with h | ⟨_, _, h⟩
  · exact .inl h
  · right
    cases c with
    | elems _ => cases h
    | bytes b =>
      simp only [sameText, Option.map_eq_some_iff, decide_eq_true_eq] at h
      obtain ⟨u, hu, he⟩ := h
      exact ⟨b, u, rfl, hu, he⟩

/-- **C20, nothing is saved without need.**  If the newest version of a file that is not newer than `d` is older than `d` and has the content to be saved - for a module: is
read as the same text, whatever its line ends and byte order mark - then nothing is written. -/
theorem C20_unchanged_on_disk (s : Sys) (d : Nat) (w : World V) (dir : Folder) (f : Dir × Text) (base e : Text) (hn : f.2 = base ++ '.' :: e) (he : '.' ∉ e)
    (hin : inside s f.1 = true) (hv : Shows w f.1 dir) (hold : w (f.1, versionFile base e d) = none) (m : Text) (hm : near dir f.2 d = some m) :
    (∀ content, w (f.1, m) = some content → saveOne s d w w dir ⟨f, content, sameBytes content⟩ = some w) ∧
    (∀ b u, w (f.1, m) = some (.bytes b) → utf8SigText b = some u → saveOne s d w w dir ⟨f, txt s (universal u), sameText (universal u)⟩ = some w) := by
  have h1 : ¬ isFile dir (versionFile base e d) = true := fun h => (hv.1 _).mp h hold
  have key : ∀ (content : Content V) (same : Content V → Option Bool) old, w (f.1, m) = some old → same old = some true →
      saveOne s d w w dir ⟨f, content, same⟩ = some w := by
    intro content same old ho hs
    unfold saveOne
    rw [if_pos hin]
    unfold saveName
    simp only
    rw [hm, hn, descentName_base _ _ he, if_neg h1]
    simp only [ho, hs, Option.map_some, if_true]
  refine ⟨fun content h => key content _ content h ?_, fun b u h hu => key _ _ _ h ?_⟩
  · exact sameBytes_self content
  · simp only [sameText, hu, Option.map_some, decide_true]

/-- **C20, a change is saved.**  If it has another content, the file is written under the name of version `d`. -/
theorem C20_changed_on_disk (s : Sys) (d : Nat) (w w' : World V) (dir : Folder) (f : Dir × Text) (base e : Text) (hn : f.2 = base ++ '.' :: e) (he : '.' ∉ e)
    (hin : inside s f.1 = true) (m : Text) (hm : near dir f.2 d = some m) :
    (∀ content old, w (f.1, m) = some old → old ≠ content → saveOne s d w w dir ⟨f, content, sameBytes content⟩ = some w' →
      w' (f.1, versionFile base e d) = some content) ∧
    (∀ b u t, w (f.1, m) = some (.bytes b) → utf8SigText b = some u → universal u ≠ t → saveOne s d w w dir ⟨f, txt s t, sameText t⟩ = some w' →
      w' (f.1, versionFile base e d) = some (txt s t)) := by
  have key : ∀ (content : Content V) (same : Content V → Option Bool) old, w (f.1, m) = some old → same old = some false →
      saveOne s d w w dir ⟨f, content, same⟩ = some w' → w' (f.1, versionFile base e d) = some content := by
    intro content same old ho hs h
    unfold saveOne at h
    rw [if_pos hin] at h
    unfold saveName at h
    simp only at h
    rw [hm, hn, descentName_base _ _ he] at h
    by_cases h1 : isFile dir (versionFile base e d) = true
    · rw [if_pos h1] at h
      rw [← Option.some.inj h]
      exact if_pos rfl
    · rw [if_neg h1] at h
      simp only [ho, hs, Option.map_some] at h
      rw [← Option.some.inj h]
      exact if_pos rfl
  refine ⟨fun content old ho hne => key content _ old ho ?_, fun b u t ho hu hne => key _ _ _ ho ?_⟩
  · exact sameBytes_ne hne
  · simp only [sameText, hu, Option.map_some, decide_eq_false hne]

end V8.Versions
