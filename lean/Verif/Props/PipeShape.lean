import Verif.Props.PipeElems
import Verif.Props.Tree
/-
A folder of sources that holds the same files as the one that was extracted is read as the same tree.
-/
namespace V8.Pipe
open V8.Str V8.Brace V8.Enc V8.JsonText V8.Object
open V8.Tree hiding Dir
open V8.Store hiding Kind nodeOf
open V8.Code (Dir)
open V8.Leaf (dirOnly)

/-- the bytes `b'` stand for the bytes `b` in the file `n`: they are the same, or `n` is a file of elements and they hold the same elements -/
def Alike (n : Text) (b b' : Bytes) : Prop := b' = b ∨ V8.Org.isElem n = true ∧ SameElems b b'

/-- the same for a file that may be missing -/
inductive AlikeFile (n : Text) : Option Bytes → Option Bytes → Prop where
  | none : AlikeFile n none none
  | some {b b' : Bytes} (h : Alike n b b') : AlikeFile n (some b) (some b')

/-- the folder `S'` stands for the folder `S` of an object: its files do, and copied folders (which matter only for objects without nested objects) are the same -/
def Stands (kids : Bool) (S S' : Text → Option Node) : Prop :=
  (∀ n, AlikeFile n (fileIn S n) (fileIn S' n)) ∧ (kids = false → ∀ n, dirOnly (S' n) = dirOnly (S n))

/-- the disk holds below `p` the files of `d` -/
structure Holds (D : Disk) (p : Dir) (d : V8.Tree.Dir) : Prop where
  only : ∀ q n b', D (p ++ q, n) = some b' → ∃ b, InDir d q n b ∧ Alike n b b'
  all : ∀ q n b, InDir d q n b → ∃ b', D (p ++ q, n) = some b' ∧ Alike n b b'

/-- a tree of folders as extraction makes it -/
inductive Neat (K : Text → Option Handler) : Text → V8.Tree.Dir → Prop where
  | simple {ty : Text} {h : Handler} {files : List (Place Node)} (hk : K ty = some h) (hn : h.kids = false) (hf : ∃ n b, folder files n = some (.file b))
      (hd : ∀ m g, folder files m = some (.dir g) → (∃ n, g n ≠ none) ∧ ∀ n, V8.Org.isElem n = true → g n = none) : Neat K ty (.mk files .nil)
  | full {ty : Text} {files : List (Place Node)} {subs : Subs} (hn : ∀ h, K ty = some h → h.kids = true) (hf : ∃ n b, folder files n = some (.file b))
      (hd : ∀ m g, folder files m ≠ some (.dir g)) (hs : ((subsList subs).map (fun q => (q.1, q.2.1))).Nodup)
      (hl : ∀ q ∈ subsList subs, Neat K q.1 q.2.2) : Neat K ty (.mk files subs)

theorem split_ne_nil (d : Char) : ∀ s : Text, split d s ≠ []
  | [] => by rw [split]; exact List.cons_ne_nil _ _
  | c :: t => by
    rw [split]
    by_cases h : c = d
    · rw [if_pos h]; exact List.cons_ne_nil _ _
    · rw [if_neg h]
      cases split d t <;> exact List.cons_ne_nil _ _

theorem split_inj (d : Char) : ∀ s t : Text, split d s = split d t → s = t
  | [], [], _ => rfl
  | [], c :: t, h => by
    rw [split, split] at h
    by_cases hc : c = d
    · rw [if_pos hc] at h
      injection h with _ h
      exact absurd h.symm (split_ne_nil d t)
    · rw [if_neg hc] at h
      cases hs : split d t with
      | nil => exact absurd hs (split_ne_nil d t)
      | cons a r => rw [hs] at h; cases h
  | c :: s, [], h => by
    rw [split, split] at h
    by_cases hc : c = d
    · rw [if_pos hc] at h
      injection h with _ h
      exact absurd h (split_ne_nil d s)
    · rw [if_neg hc] at h
      cases hs : split d s with
      | nil => exact absurd hs (split_ne_nil d s)
      | cons a r => rw [hs] at h; cases h
  | c :: s, c' :: t, h => by
    rw [split, split] at h
    by_cases hc : c = d
    · rw [if_pos hc] at h
      by_cases hc' : c' = d
      · rw [if_pos hc'] at h
        injection h with _ h
        rw [hc, hc', split_inj d s t h]
      · rw [if_neg hc'] at h
        cases hs : split d t with
        | nil => exact absurd hs (split_ne_nil d t)
        | cons a r => rw [hs] at h; cases h
    · rw [if_neg hc] at h
      cases hs : split d s with
      | nil => exact absurd hs (split_ne_nil d s)
      | cons a r =>
        rw [hs] at h
        by_cases hc' : c' = d
        · rw [if_pos hc'] at h; cases h
        · rw [if_neg hc'] at h
          cases ht : split d t with
          | nil => exact absurd ht (split_ne_nil d t)
          | cons a' r' =>
            rw [ht] at h
            simp only [List.cons.injEq] at h
            obtain ⟨⟨e1, e2⟩, e3⟩ := h
            rw [e1, split_inj d s t (by rw [hs, ht, e2, e3])]

theorem subs_ofList : ∀ l : List (Text × Text × V8.Tree.Dir), subsList (.ofList l) = l
  | [] => rfl
  | (ty, nm, d) :: r => by rw [Subs.ofList, subsList, subs_ofList r]

theorem ofList_subs : ∀ s : Subs, Subs.ofList (subsList s) = s
  | .nil => rfl
  | .cons ty nm d r => by rw [subsList, Subs.ofList, ofList_subs r]

theorem inDir_own {files : List (Place Node)} {subs : Subs} {n : Text} {b : Bytes} (h : InDir (.mk files subs) [] n b) : folder files n = some (.file b) := by
  generalize hp : ([] : Dir) = p at h
  generalize hd : V8.Tree.Dir.mk files subs = d at h
  cases h with
  | own h => cases hd; exact h
  | copied h hg => exact absurd hp.symm (split_ne_nil _ _)
  | nested hm h => cases hp

theorem inDir_below {files : List (Place Node)} {subs : Subs} {m n : Text} {b : Bytes} (h : InDir (.mk files subs) (split '/' m) n b) :
    (∃ g, folder files m = some (.dir g) ∧ g n = some b) ∨ ∃ q, q ∈ subsList subs := by
  generalize hp : split '/' m = p at h
  generalize hd : V8.Tree.Dir.mk files subs = d at h
  cases h with
  | own h => exact absurd hp (split_ne_nil _ _)
  | copied h hg =>
    cases hd
    have := split_inj _ _ _ hp
    subst this
    exact .inl ⟨_, h, hg⟩
  | nested hm h => cases hd; exact .inr ⟨_, hm⟩

theorem inDir_nested {files : List (Place Node)} {subs : Subs} {ty nm : Text} {p : Dir} {n : Text} {b : Bytes}
    (h : InDir (.mk files subs) (ty :: nm :: p) n b) : (∃ m g, folder files m = some (.dir g)) ∨ ∃ d, (ty, nm, d) ∈ subsList subs ∧ InDir d p n b := by
  generalize hp : ty :: nm :: p = q at h
  generalize hd : V8.Tree.Dir.mk files subs = d at h
  cases h with
  | own h => cases hp
  | copied h hg => cases hd; exact .inl ⟨_, _, h⟩
  | nested hm h =>
    cases hd
    injection hp with h1 hp
    injection hp with h2 h3
    subst h1
    subst h2
    subst h3
    exact .inr ⟨_, hm, h⟩

theorem nodeAt_file {D : Disk} {p : Dir} {n : Text} {b : Bytes} (h : D (p, n) = some b) : nodeAt D p n = some (.file b) := by
  unfold nodeAt
  rw [h]

theorem fileIn_nodeAt {D : Disk} {p : Dir} {n : Text} {S : Text → Option Node} (h : S n = nodeAt D p n) : fileIn S n = D (p, n) := by
  unfold fileIn
  rw [h]
  cases hD : D (p, n) with
  | some b => rw [nodeAt_file hD]
  | none =>
    unfold nodeAt
    rw [hD]
    simp only
    split <;> first | rfl | (rename_i h; split at h <;> cases h)

/-- the files of an object -/
theorem files_alike {D : Disk} {p : Dir} {files files' : List (Place Node)} {subs : Subs} (h : Holds D p (.mk files subs)) (hf : ∀ n, folder files' n = nodeAt D p n)
    (n : Text) : AlikeFile n (fileIn (folder files) n) (fileIn (folder files') n) := by
  rw [fileIn_nodeAt (hf n)]
  cases hD : D (p, n) with
  | some b' =>
    obtain ⟨b, h1, h2⟩ := h.only [] n b' (by rw [List.append_nil]; exact hD)
    rw [fileIn_of (b := some b) (inDir_own h1)]
    exact .some h2
  | none =>
    cases hn : fileIn (folder files) n with
    | none => exact .none
    | some b =>
      have hb : folder files n = some (.file b) := by
        unfold fileIn at hn
        cases hx : folder files n with
        | none => rw [hx] at hn; cases hn
        | some nd =>
          rw [hx] at hn
          cases nd with
          | file c => cases hn; rfl
          | dir g => cases hn
      obtain ⟨b', h1, _⟩ := h.all [] n b (.own hb)
      rw [List.append_nil, hD] at h1
      cases h1

theorem inDir_any {K : Text → Option Handler} {ty : Text} {d : V8.Tree.Dir} (h : Neat K ty d) : ∃ q n b, InDir d q n b := by
  cases h with
  | simple _ _ hf _ => obtain ⟨n, b, h⟩ := hf; exact ⟨[], n, b, .own h⟩
  | full _ hf _ _ _ => obtain ⟨n, b, h⟩ := hf; exact ⟨[], n, b, .own h⟩

theorem key_eq {l : List (Text × Text × V8.Tree.Dir)} (h : (l.map (fun q => (q.1, q.2.1))).Nodup) {ty nm : Text} {d d' : V8.Tree.Dir} (h1 : (ty, nm, d) ∈ l)
    (h2 : (ty, nm, d') ∈ l) : d = d' := by
  induction l with
  | nil => cases h1
  | cons a r ih =>
    rw [List.map_cons, List.nodup_cons] at h
    rcases List.mem_cons.mp h1 with e | h1'
    · rcases List.mem_cons.mp h2 with e' | h2'
      · rw [← e'] at e
        cases e
        rfl
      · exact absurd (List.mem_map.mpr ⟨_, h2', by rw [← e]⟩) h.1
    · rcases List.mem_cons.mp h2 with e' | h2'
      · exact absurd (List.mem_map.mpr ⟨_, h1', by rw [← e']⟩) h.1
      · exact ih h.2 h1' h2'

/-- the folders of the nested objects -/
theorem shows_subs {K : Text → Option Handler} {D : Disk} {p : Dir} {files files' : List (Place Node)} {subs subs' : Subs}
    (hd : ∀ m g, folder files m ≠ some (.dir g)) (hs : ((subsList subs).map (fun q => (q.1, q.2.1))).Nodup) (hl : ∀ q ∈ subsList subs, Neat K q.1 q.2.2)
    (ih : ∀ q ∈ subsList subs, ∀ {p : Dir} {d' : V8.Tree.Dir}, Holds D p q.2.2 → Shows D p d' → Like K Stands q.1 q.2.2 d')
    (hh : Holds D p (.mk files subs)) (hsh : Shows D p (.mk files' subs')) : LikeSubs K Stands subs subs' := by
  cases hsh with
  | mk hf' hnd' hs' hd' =>
    -- below the folder of a nested object
    have hbelow : ∀ ty nm d, (ty, nm, d) ∈ subsList subs → Holds D (p ++ [ty, nm]) d := by
      intro ty nm d hm
      constructor
      · intro q n b' hD
        rw [List.append_assoc] at hD
        obtain ⟨b, h1, h2⟩ := hh.only ([ty, nm] ++ q) n b' hD
        rcases inDir_nested h1 with ⟨m, g, h3⟩ | ⟨d2, h3, h4⟩
        · exact absurd h3 (hd m g)
        · rw [key_eq hs hm h3]
          exact ⟨b, h4, h2⟩
      · intro q n b h1
        rw [List.append_assoc]
        exact hh.all ([ty, nm] ++ q) n b (.nested hm h1)
    have hkeys : ∀ ty nm, (ty, nm) ∈ (subsList subs').map (fun q => (q.1, q.2.1)) ↔ ∃ d, (ty, nm, d) ∈ subsList subs := by
      intro ty nm
      rw [hs']
      constructor
      · rintro ⟨q, n, hD⟩
        obtain ⟨b', hb'⟩ := Option.ne_none_iff_exists'.mp hD
        obtain ⟨b, h1, _⟩ := hh.only _ n b' hb'
        rcases inDir_nested h1 with ⟨m, g, h3⟩ | ⟨d2, h3, _⟩
        · exact absurd h3 (hd m g)
        · exact ⟨d2, h3⟩
      · rintro ⟨d, hm⟩
        obtain ⟨q, n, b, h1⟩ := inDir_any (hl _ hm)
        obtain ⟨b', h2, _⟩ := hh.all _ n b (.nested hm h1)
        exact ⟨q, n, by rw [h2]; exact fun h => by cases h⟩
    have hpick : ∀ a ∈ subsList subs, ∃ d', (a.1, a.2.1, d') ∈ subsList subs' := by
      rintro ⟨ty, nm, d⟩ hm
      obtain ⟨⟨t, n, d'⟩, h1, h2⟩ := List.mem_map.mp ((hkeys ty nm).mpr ⟨d, hm⟩)
      cases h2
      exact ⟨d', h1⟩
    let pick : Text × Text × V8.Tree.Dir → V8.Tree.Dir := fun a => open Classical in
      if h : ∃ d', (a.1, a.2.1, d') ∈ subsList subs' then h.choose else a.2.2
    have hpick' : ∀ a ∈ subsList subs, (a.1, a.2.1, pick a) ∈ subsList subs' := by
      intro a ha
      have h := hpick a ha
      have e : pick a = h.choose := dif_pos h
      rw [e]
      exact h.choose_spec
    let l : List (Text × Text × V8.Tree.Dir × V8.Tree.Dir) := (subsList subs).map (fun a => (a.1, a.2.1, a.2.2, pick a))
    have e1 : l.map (fun q => (q.1, q.2.1, q.2.2.1)) = subsList subs := by
      show ((subsList subs).map _).map _ = _
      rw [List.map_map]
      exact List.map_id _
    have e2 : l.map (fun q => (q.1, q.2.1, q.2.2.2)) = (subsList subs).map (fun a => (a.1, a.2.1, pick a)) := by
      show ((subsList subs).map _).map _ = _
      rw [List.map_map]
      rfl
    refine ⟨l, subsList subs', by rw [e1, ofList_subs], (ofList_subs _).symm, ?_, ?_⟩
    · rw [e2]
      refine (List.perm_ext_iff_of_nodup ?_ ?_).mpr ?_
      · exact (List.pairwise_map.mp hnd').imp (fun {a b} hab hc => hab (by rw [hc]))
      · refine List.pairwise_map.mpr ((List.pairwise_map.mp hs).imp (fun {a b} hab hc => hab ?_))
        simp only [Prod.mk.injEq] at hc
        rw [hc.1, hc.2.1]
      · rintro ⟨ty, nm, d'⟩
        constructor
        · intro hm
          obtain ⟨d, hm'⟩ := (hkeys ty nm).mp (List.mem_map.mpr ⟨_, hm, rfl⟩)
          refine List.mem_map.mpr ⟨_, hm', ?_⟩
          have := hpick' _ hm'
          rw [key_eq hnd' hm this]
        · intro hm
          obtain ⟨a, ha, he⟩ := List.mem_map.mp hm
          rw [← he]
          exact hpick' a ha
    · intro q hq
      obtain ⟨a, ha, rfl⟩ := List.mem_map.mp hq
      obtain ⟨ty, nm, d⟩ := a
      exact ih _ ha (hbelow ty nm d ha) (hd' _ (hpick' _ ha))

/-- a disk that holds the files of an extracted tree is read as that tree, with the folders listed in any order and the files standing for those that were
extracted -/
theorem shows_like {K : Text → Option Handler} {D : Disk} {ty : Text} {d : V8.Tree.Dir} (hneat : Neat K ty d) :
    ∀ {p : Dir} {d' : V8.Tree.Dir}, Holds D p d → Shows D p d' → Like K Stands ty d d' := by
  induction hneat with
  | simple hk hn hf hd =>
    intro p d' hh hs
    rename_i ty h files
    cases hs with
    | mk hf' _ _ _ =>
      rename_i files' subs'
      refine .simple hk hn ⟨fun n => files_alike hh hf' n, fun _ n => ?_⟩
      rw [hf' n]
      unfold nodeAt
      cases hD : D (p, n) with
      | some b' =>
        obtain ⟨b, h1, _⟩ := hh.only [] n b' (by rw [List.append_nil]; exact hD)
        rw [inDir_own h1]
        rfl
      | none =>
        simp only
        have hkey : ∀ x b', D (p ++ split '/' n, x) = some b' → ∃ g, folder files n = some (.dir g) ∧ g x = some b' := by
          intro x b' hx
          obtain ⟨b, h1, h2⟩ := hh.only _ x b' hx
          rcases inDir_below h1 with ⟨g, h3, h4⟩ | ⟨q, hq⟩
          · refine ⟨g, h3, ?_⟩
            rcases h2 with h2 | ⟨h2, _⟩
            · rw [h2]; exact h4
            · rw [(hd n g h3).2 x h2] at h4
              cases h4
          · cases hq
        by_cases hex : ∃ x, D (p ++ split '/' n, x) ≠ none
        · rw [if_pos hex]
          obtain ⟨x, hx⟩ := hex
          obtain ⟨b', hb'⟩ := Option.ne_none_iff_exists'.mp hx
          obtain ⟨g, h3, _⟩ := hkey x b' hb'
          rw [h3]
          show some (Node.dir _) = some (Node.dir g)
          congr 2
          funext x
          cases hDx : D (p ++ split '/' n, x) with
          | some b' =>
            obtain ⟨g', h5, h6⟩ := hkey x b' hDx
            rw [h3] at h5
            cases h5
            exact h6.symm
          | none =>
            cases hg : g x with
            | none => rfl
            | some b =>
              obtain ⟨b', h7, _⟩ := hh.all _ x b (.copied h3 hg)
              rw [hDx] at h7
              cases h7
        · rw [if_neg hex]
          cases hS : folder files n with
          | none => rfl
          | some nd =>
            cases nd with
            | file b => rfl
            | dir g =>
              obtain ⟨x, hx⟩ := (hd n g hS).1
              obtain ⟨b, hb⟩ := Option.ne_none_iff_exists'.mp hx
              obtain ⟨b', h7, _⟩ := hh.all _ x b (.copied hS hb)
              exact absurd ⟨x, by rw [h7]; exact fun h => by cases h⟩ hex
  | full hn hf hd hs hl ih =>
    intro p d' hh hsh
    rename_i ty files subs
    have hsub : ∀ files' subs', d' = .mk files' subs' → LikeSubs K Stands subs subs' := by
      intro files' subs' e
      subst e
      exact shows_subs hd hs hl (fun q hq {p d'} => ih q hq) hh hsh
    cases hsh with
    | mk hf' hnd' hs' hd' =>
      obtain ⟨l, l', rfl, rfl, h3, h4⟩ := hsub _ _ rfl
      exact .full hn ⟨fun n => files_alike hh hf' n, fun h => by cases h⟩ h3 h4

end V8.Pipe
