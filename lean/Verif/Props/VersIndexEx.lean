import Verif.Props.VersIndexBack
import Verif.Props.VersionsEx
import Verif.Props.OrgIndexEx
/-
C79: what goes wrong, and a folder with an index that meets the hypotheses.
-/
namespace V8.VersIndex
open V8.Str V8.Enc V8.Dec V8.Code V8.Brace V8.Descent V8.Json V8.Index
open V8.Org (Sys Content World Item Write isCode isElem put puts clear txt tasks codeAreas elemAreas Ready)
open V8.OrgIndex (Tidy TidyV CleanEntry named NoOther target Job folder runJobs indexJobs entriesOf mem_entries packIndex_tidy entryFile_at)
open V8.Versions (Put Saves Views Listing Shows stored Fit AreasOutside inside saveOne saveName)

/-! ### an entry for a file inside the source folder -/

/-- the file after saving one file in a folder that counts as inside: another name was written to, if any -/
theorem save_other {V : Type} (s : Sys) (d : Nat) (hd : 1 ≤ d) (view w w' : World V) (dir : Folder) (x : Put V) (hin : inside s x.file.1 = true)
    (h : saveOne s d view w dir x = some w') : w' x.file = w x.file := by
  unfold saveOne at h
  rw [if_pos hin, Option.map_eq_some_iff] at h
  obtain ⟨r, hr, rfl⟩ := h
  cases r with
  | none => rfl
  | some n =>
    have hn : n = descentName x.file.2 d := by
      unfold saveName at hr
      by_cases hf : isFile dir (descentName x.file.2 d) = true
      · rw [if_pos hf] at hr
        exact (Option.some.inj (Option.some.inj hr)).symm
      rw [if_neg hf] at hr
      cases hnear : near dir x.file.2 d with
      | none =>
        rw [hnear] at hr
        exact (Option.some.inj (Option.some.inj hr)).symm
      | some m =>
        rw [hnear] at hr
        simp only at hr
        cases hold : view (x.file.1, m) with
        | none => rw [hold] at hr; cases hr
        | some old =>
          rw [hold] at hr
          simp only at hr
          rw [Option.map_eq_some_iff] at hr
          obtain ⟨b, _, hb⟩ := hr
          cases b with
          | true => cases hb
          | false => exact (Option.some.inj hb).symm
    show (if x.file = (x.file.1, n) then some x.content else w x.file) = w x.file
    rw [if_neg]
    intro he
    have h2 : x.file.2 = n := congrArg Prod.snd he
    rw [hn] at h2
    exact descentName_ne _ d hd h2.symm

/-- **C79 is false of entries that name a file inside the source folder, or in a folder whose path begins with the text of its path** (`/p/src_common` for the
sources `/p/src`).  Let the index have one entry, for a copied file of the product, naming such a file `f`.  Extraction at a version writes the file under another name, with the version;
the build takes `f` itself: the product gets what was in `f` before the extraction, and cannot be built if there was nothing, or if `f` was removed with the
old sources. -/
theorem C79_inside_neg {V : Type} (names : V → List Text) (cwd : Text → Option (List (Text × Bool))) (s : Sys) (hdeep : s.deep = true) (hne : s.src ≠ [])
    (hsrc : ∀ c ∈ s.src, V8.Path.Plain c) (d : Nat) (hd : 1 ≤ d) (w w' : World V) (n e : Text) (c : Content V)
    (k1 : isCode n = false) (k2 : isElem n = false) (hstar : starts ['*'] n = false) (hkey : n ≠ areasKey) (he : e ≠ []) (hc : CleanEntry e)
    (hin : inside s (named s.src.dropLast e).1 = true) (h : Unpacked names s (.cons n (.str e) .nil) d w [([], n, c)] w') :
    ∀ view ls d' fuel b, Packed names cwd s (.cons n (.str e) .nil) w' view ls d' fuel b → clear s w (named s.src.dropLast e) ≠ none ∧
      b ([], n) = clear s w (named s.src.dropLast e) := by
  have hat : (J.obj (.cons n (.str e) .nil)).at ([] ++ [n]) = some (.str e) := by
    rw [List.nil_append, at_obj, D.get, if_pos rfl, Option.bind_some, at_nil]
  have hns : n ≠ ['*'] := fun h => by
    rw [h] at hstar
    exact absurd hstar (by decide)
  have hhome : V8.OrgIndex.home s.src (.cons n (.str e) .nil) [] n s.deep = some (named s.src.dropLast e) := by
    rw [hdeep, V8.OrgIndex.home_at true s.src _ hsrc [] (fun _ h => by cases h) n (fun e' h1 _ => by
      rw [hat] at h1
      cases h1
      exact hc) (fun v hv => by
      rw [hat] at hv
      cases hv
      exact .inr ⟨e, rfl⟩) (by
      rw [List.nil_append, at_obj, D.get, if_neg hns, D.get]
      rfl) (fun q hq => by
      rw [List.prefix_nil.mp hq, at_nil]
      exact .inr ⟨_, rfl⟩)]
    unfold target
    rw [hat]
    simp only [if_neg he]
    rfl
  -- the file is as it was
  have hw' : w' (named s.src.dropLast e) = clear s w (named s.src.dropLast e) := by
    obtain ⟨plain, code, elem, code', elem', v0, h0, v, hh, hp, hcode, helem, pc, pe, hs0, hs, rfl⟩ := h
    have hf1 : ([([], n, c)] : List (Item V)).filter (fun i => !isCode i.2.1 && !isElem i.2.1) = [([], n, c)] := by
      simp only [List.filter_cons, k1, k2, Bool.not_false, Bool.and_self, if_true, List.filter_nil]
    have hf2 : ([([], n, c)] : List (Item V)).filter (fun i => isCode i.2.1) = [] := by
      simp only [List.filter_cons, k1, Bool.false_eq_true, if_false, List.filter_nil]
    have hf3 : ([([], n, c)] : List (Item V)).filter (fun i => isElem i.2.1) = [] := by
      simp only [List.filter_cons, k2, Bool.false_eq_true, if_false, List.filter_nil]
    rw [hf1] at hp
    rw [hf2, List.mapM_nil] at hcode
    rw [hf3, tasks, List.mapM_nil] at helem
    cases hcode
    cases helem
    rw [List.Perm.eq_nil pc] at hs
    rw [List.Perm.eq_nil pe]
    obtain ⟨x, xs, g1, g2, rfl⟩ := Org.mapM_cons _ _ _ _ hp
    rw [List.mapM_nil] at g2
    cases g2
    unfold plainPut at g1
    rw [hhome, Option.map_some] at g1
    cases g1
    cases hs
    cases hs0 with
    | step _ _ _ _ view dir w1 _ a1 a2 a3 a4 =>
      cases a4
      exact save_other s d hd view (clear s w) v0 dir _ hin a3
  intro view ls d' fuel b hb
  obtain ⟨ix, plainI, plain, codeI, code, elemI, elem, code', elem', b0, bn, b1, b2, b3, b4, b5, b6, p1, p2, rfl⟩ := hb
  have hix : ix = [⟨([], n), named s.src.dropLast e⟩] := by
    have hent : entriesOf (.cons n (.str e) .nil) = [([n], e)] := by
      rw [entriesOf, entriesOf, if_neg hkey]
      simp only [V8.OrgIndex.entriesV, if_neg he, List.map_cons, List.map_nil, List.append_nil]
    unfold indexJobs at b0
    rw [hdeep, packIndex_tidy cwd _ [] [] (by
      rw [Tidy, Tidy, TidyV]
      exact ⟨.inr ⟨hstar, trivial⟩, trivial⟩
      all_goals (intros; rename_i h; cases h)), Option.map_some, hent] at b0
    replace b0 := Option.some.inj b0
    rw [← b0]
    show [(⟨([], n), V8.OrgIndex.entryFile s.src n e true⟩ : Job)] = _
    rw [entryFile_at true s.src hne hsrc n e hc]
    rfl
  subst hix
  have hj1 : ([⟨([], n), named s.src.dropLast e⟩] : List Job).filter (fun j => !isCode j.dest.2 && !isElem j.dest.2) = [⟨([], n), named s.src.dropLast e⟩] := by
    simp only [List.filter_cons, k1, k2, Bool.not_false, Bool.and_self, if_true, List.filter_nil]
  have hq : isQueued n = false := by
    unfold isQueued
    unfold isElem isCode at k2
    unfold isCode at k1
    rw [k1] at k2 ⊢
    simpa using k2
  rw [hj1] at b1
  obtain ⟨y, ys, g1, g2, rfl⟩ := Org.mapM_cons _ _ _ _ b1
  rw [List.mapM_nil] at g2
  cases g2
  unfold V8.OrgIndex.runJob at g1
  simp only [k1, k2, Bool.false_eq_true, if_false, hw', Option.map_eq_some_iff] at g1
  obtain ⟨c', g1, rfl⟩ := g1
  refine ⟨by rw [g1]; exact Option.some_ne_none _, ?_⟩
  rw [g1]
  -- nothing else is written there
  have hother : ∀ (L : List (Dir × Option Text)) r, ownAll names s w' view d' fuel [⟨([], n), named s.src.dropLast e⟩] L = some r → ∀ x ∈ r, x.1 ≠ ([], n) := by
    intro L r hr x hx he
    obtain ⟨f, hf, u, hu, hxu⟩ := (ownAll_mem L r hr x).mp hx
    unfold ownWrites at hu
    cases hf2 : f.2 with
    | none => rw [hf2] at hu; cases hu
    | some m =>
      rw [hf2] at hu
      simp only at hu
      by_cases hany : (f.1, m) = (([], n) : Dir × Text)
      · rw [if_pos (by
          rw [List.any_cons, hq, hany]
          simp only [Bool.not_false, Bool.true_and, decide_true, Bool.true_or])] at hu
        rw [Option.map_eq_some_iff] at hu
        obtain ⟨_, _, rfl⟩ := hu
        cases hxu
      · by_cases hskip : ([⟨([], n), named s.src.dropLast e⟩] : List Job).any (fun j => !isQueued j.dest.2 && decide (j.dest = (f.1, m))) = true
        · rw [if_pos hskip, Option.map_eq_some_iff] at hu
          obtain ⟨_, _, rfl⟩ := hu
          cases hxu
        · rw [if_neg hskip, Option.map_eq_some_iff] at hu
          obtain ⟨_, _, rfl⟩ := hu
          rw [List.mem_singleton] at hxu
          rw [hxu] at he
          exact hany he
  have hj2 : ([⟨([], n), named s.src.dropLast e⟩] : List Job).filter (fun j => isCode j.dest.2) = [] := by
    simp only [List.filter_cons, k1, Bool.false_eq_true, if_false, List.filter_nil]
  have hj3 : ([⟨([], n), named s.src.dropLast e⟩] : List Job).filter (fun j => isElem j.dest.2) = [] := by
    simp only [List.filter_cons, k2, Bool.false_eq_true, if_false, List.filter_nil]
  rw [hj2, runJobs, List.mapM_nil] at b3
  rw [hj3, runJobs, List.mapM_nil] at b5
  cases b3
  cases b5
  refine V8.OrgIndex.folder_some _ _ c' (fun x hx he => ?_) ⟨(([], n), c'), ?_, rfl⟩
  · rw [List.mem_append, List.mem_append, List.mem_append, p1.mem_iff, p2.mem_iff, List.nil_append, List.nil_append, List.mem_singleton] at hx
    rcases hx with ((hx | hx) | hx) | hx
    · rw [hx]
    · exact absurd he (hother _ _ b2 x hx)
    · exact absurd he (hother _ _ b4 x hx)
    · exact absurd he (hother _ _ b6 x hx)
  · exact List.mem_append_left _ (List.mem_append_left _ (List.mem_append_left _ List.mem_cons_self))

namespace Ex
open V8.Versions.Ex (s l nm of_names names_eq ready outside code_areas elem_areas clear_list fit)
open V8.Org.Ex (M E form m2)
open V8.OrgIndex.Ex (idx wf entries_eq at_entry atB way plain_dec)

/-- the entries -/
def T (x : Dir × Text) : Option Text := if x = (["A".toList], "m.bsl".toList) then some "common/mod.bsl".toList
  else if x = (["A".toList], "f.elem.json".toList) then some "common/forms/form.elem.json".toList
  else if x = ([], "c.json".toList) then some "common/c.json".toList else none

theorem none_f : (J.obj idx).at (["A".toList] ++ ["f.json".toList]) = none := by
  rw [List.singleton_append, at_obj, show idx.get "A".toList = some (.obj _) by rfl, Option.bind_some, at_obj]
  rfl

theorem entry_T (x : Dir × Text) (h : x ∈ nm) : entryOf idx x.1 x.2 = T x := by
  simp only [nm, List.mem_cons, List.not_mem_nil, or_false] at h
  rcases h with rfl | rfl | rfl | rfl | rfl
  · rw [show T (["A".toList], "m.bsl".toList) = some "common/mod.bsl".toList by decide +kernel]
    exact (entryOf_iff _ _ _ _).mpr ⟨by decide, at_entry _ "common/mod.bsl".toList (by rw [entries_eq]; decide)⟩
  · rw [show T (["B".toList], "n.bsl".toList) = none by decide +kernel]
    unfold entryOf
    rw [atB]
    rfl
  · rw [show T (["A".toList], "f.elem.json".toList) = some "common/forms/form.elem.json".toList by decide +kernel]
    exact (entryOf_iff _ _ _ _).mpr ⟨by decide, at_entry _ "common/forms/form.elem.json".toList (by rw [entries_eq]; decide)⟩
  · rw [show T (["A".toList], "f.json".toList) = none by decide +kernel]
    unfold entryOf
    rw [none_f]
  · rw [show T ([], "c.json".toList) = some "common/c.json".toList by decide +kernel]
    exact (entryOf_iff _ _ _ _).mpr ⟨by decide, at_entry _ "common/c.json".toList (by rw [entries_eq]; decide)⟩

theorem mem_nm (i : Item (List Text)) (h : i ∈ l) : (i.1, i.2.1) ∈ nm := of_names (P := fun x => x ∈ nm) (fun _ h => h) i h

theorem entry_i (i : Item (List Text)) (h : i ∈ l) : entryOf idx i.1 i.2.1 = T (i.1, i.2.1) := entry_T _ (mem_nm i h)

theorem keys (p : Dir) (n : Text) (h : (p, n) ∈ nm) : p = [] ∨ p = ["A".toList] ∨ p = ["B".toList] := by
  simp only [nm, List.mem_cons, List.not_mem_nil, or_false, Prod.mk.injEq] at h
  rcases h with ⟨rfl, _⟩ | ⟨rfl, _⟩ | ⟨rfl, _⟩ | ⟨rfl, _⟩ | ⟨rfl, _⟩
  · exact .inr (.inl rfl)
  · exact .inr (.inr rfl)
  · exact .inr (.inl rfl)
  · exact .inr (.inl rfl)
  · exact .inl rfl

theorem indexFit : IndexFit id s idx l M E := by
  obtain ⟨e, he⟩ := elem_areas
  refine ⟨wf, ?_, by decide, ?_, ?_, ?_, ?_, ?_, ?_, ?_, ?_, ?_, ?_, ?_⟩
  · simp only [idx, Tidy, TidyV, and_true]
    decide +kernel
  · intro c hc
    have : ∀ c ∈ s.src, ('/' ∉ c && c ≠ [] && c ≠ ".".toList && c ≠ "..".toList) = true := by decide +kernel
    exact plain_dec c (this c hc)
  · intro i hi
    have h := mem_nm i hi
    have : ∀ x ∈ nm, (∀ c ∈ x.1, ('/' ∉ c && c ≠ [] && c ≠ ".".toList && c ≠ "..".toList) = true) ∧ areasKey ∉ x.1 ++ [x.2] := by decide +kernel
    have := this _ h
    exact ⟨fun c hc => plain_dec c (this.1 c hc), this.2⟩
  · intro q k x h1 h2 h3
    have hm := (mem_entries idx wf (q ++ [k]) x).mpr ⟨by simp, h1, h3, h2⟩
    rw [entries_eq] at hm
    simp only [List.mem_cons, List.not_mem_nil, or_false, Prod.mk.injEq] at hm
    rcases hm with ⟨_, rfl⟩ | ⟨_, rfl⟩ | ⟨_, rfl⟩
    · exact ⟨by decide +kernel, plain_dec _ (by decide +kernel)⟩
    · exact ⟨by decide +kernel, plain_dec _ (by decide +kernel)⟩
    · exact ⟨by decide +kernel, plain_dec _ (by decide +kernel)⟩
  · intro i hi v hv
    have h := mem_nm i hi
    generalize i.2.1 = n at h hv
    generalize i.1 = p at h hv
    simp only [nm, List.mem_cons, List.not_mem_nil, or_false, Prod.mk.injEq] at h
    right
    rcases h with ⟨rfl, rfl⟩ | ⟨rfl, rfl⟩ | ⟨rfl, rfl⟩ | ⟨rfl, rfl⟩ | ⟨rfl, rfl⟩
    · rw [show ["A".toList] ++ ["m.bsl".toList] = ["A".toList, "m.bsl".toList] from rfl, at_entry _ "common/mod.bsl".toList (by rw [entries_eq]; decide)] at hv
      exact ⟨_, (Option.some.inj hv).symm⟩
    · rw [atB] at hv
      exact ⟨_, (Option.some.inj hv).symm⟩
    · rw [show ["A".toList] ++ ["f.elem.json".toList] = ["A".toList, "f.elem.json".toList] from rfl,
        at_entry _ "common/forms/form.elem.json".toList (by rw [entries_eq]; decide)] at hv
      exact ⟨_, (Option.some.inj hv).symm⟩
    · rw [none_f] at hv
      cases hv
    · rw [List.nil_append, at_entry _ "common/c.json".toList (by rw [entries_eq]; decide)] at hv
      exact ⟨_, (Option.some.inj hv).symm⟩
  · intro i hi
    exact way _ (keys _ _ (mem_nm i hi))
  · intro i hi
    rcases keys _ _ (mem_nm i hi) with h | h | h
    · rw [h, List.nil_append, at_obj, show idx.get ['*'] = none by rfl]; rfl
    · rw [h, List.singleton_append, at_obj, show idx.get "A".toList = some (.obj _) by rfl, Option.bind_some, at_obj]; rfl
    · rw [h, List.singleton_append, at_obj, show idx.get "B".toList = some (.obj _) by rfl, Option.bind_some, at_obj]; rfl
  · intro i hi x hx
    rw [entry_i i hi] at hx
    have : ∀ y ∈ nm, ∀ x ∈ T y, inside s (named s.src.dropLast x).1 = false := by decide +kernel
    exact this _ (mem_nm i hi) x hx
  · intro i hi j hj x x' hx hx' hn
    rw [entry_i i hi] at hx
    rw [entry_i j hj] at hx'
    have : ∀ y ∈ nm, ∀ y' ∈ nm, ∀ x ∈ T y, ∀ x' ∈ T y', named s.src.dropLast x = named s.src.dropLast x' → y.1 = y'.1 ∧ y.2 = y'.2 := by decide +kernel
    exact this _ (mem_nm i hi) _ (mem_nm j hj) x hx x' hx' hn
  · intro i hi x hx a ha
    rw [entry_i i hi] at hx
    rw [code_areas] at ha
    have : ∀ y ∈ nm, ∀ x ∈ T y, named s.src.dropLast x ≠ (["lib".toList], "common.bsl".toList) ∧
      named s.src.dropLast x ≠ (["lib".toList, "util".toList], "str.bsl".toList) := by decide +kernel
    have hx := this _ (mem_nm i hi) x hx
    simp only [List.mem_cons, List.not_mem_nil, or_false] at ha
    rcases ha with rfl | rfl | rfl
    · exact hx.1
    · exact hx.2
    · exact hx.2
  · intro i hi x hx a ha
    rw [entry_i i hi] at hx
    rw [he] at ha
    rw [List.mem_singleton.mp ha]
    have : ∀ y ∈ nm, ∀ x ∈ T y, named s.src.dropLast x ≠ (["lib".toList], "B.elem.json".toList) := by decide +kernel
    exact this _ (mem_nm i hi) x hx
  · intro i hi x hx hk
    rw [entry_i i hi] at hx
    have : ∀ y ∈ nm, ∀ x ∈ T y, isElem y.2 = true → isElem (named s.src.dropLast x).2 = true := by decide +kernel
    exact this _ (mem_nm i hi) x hx hk

theorem noOther : NoOther idx l := by
  intro q k x h1 h2 h3
  have hm := (mem_entries idx wf (q ++ [k]) x).mpr ⟨by simp, h1, h3, h2⟩
  rw [entries_eq] at hm
  simp only [List.mem_cons, List.not_mem_nil, or_false, Prod.mk.injEq] at hm
  have key : ∀ (a : List Text) (b : Text), q ++ [k] = a ++ [b] → q = a ∧ k = b := by
    intro a b hab
    obtain ⟨h1, h2⟩ := List.append_inj' hab rfl
    exact ⟨h1, by injection h2⟩
  rcases hm with ⟨hm, _⟩ | ⟨hm, _⟩ | ⟨hm, _⟩
  · obtain ⟨rfl, rfl⟩ := key ["A".toList] "m.bsl".toList hm
    exact ⟨_, List.mem_cons_self⟩
  · obtain ⟨rfl, rfl⟩ := key ["A".toList] "f.elem.json".toList hm
    exact ⟨_, List.mem_cons_of_mem _ (List.mem_cons_of_mem _ List.mem_cons_self)⟩
  · obtain ⟨rfl, rfl⟩ := key [] "c.json".toList hm
    exact ⟨_, List.mem_cons_of_mem _ (List.mem_cons_of_mem _ (List.mem_cons_of_mem _ (List.mem_cons_of_mem _ List.mem_cons_self)))⟩

/-- the names that stay, of any part of a folder -/
theorem fit_part {s : Sys} {d : Nat} {l l' : List (Item (List Text))} (h : Fit s d l) (hs : ∀ i ∈ l', i ∈ l) : Fit s d l' := by
  have hn : ∀ p n, ClearNames (Versions.storedNames d l p) n → ClearNames (Versions.storedNames d l' p) n := by
    intro p n hc
    refine clear_of_mono _ _ n (fun m hm => ?_) hc
    unfold Versions.storedNames at hm
    obtain ⟨c, hm⟩ := (isFile_iff _ _).mp hm
    obtain ⟨i, hi, he⟩ := List.mem_map.mp hm
    rw [List.mem_filter, decide_eq_true_eq] at hi
    injection he with he _
    rw [← he, ← hi.2]
    exact Versions.isFile_stored d l i (hs i hi.1)
  exact ⟨h.deep, fun h0 i hi => h.base h0 i (hs i hi), fun i hi => h.dots i (hs i hi), fun i hi j hj => h.once i (hs i hi) j (hs j hj), fun i hi j hj => h.folders i (hs i hi) j (hs j hj),
    fun i hi => hn _ _ (h.alone i (hs i hi)), fun i hi hk => hn _ _ (h.aloneAgain i (hs i hi) hk)⟩

theorem fitOwn : Fit s 7 (own idx l) := fit_part fit (fun _ hi => (mem_own.mp hi).1)

/-- extracted at version 7 with the index and built at version 9: the JSON file is in `common` without a version, the module that stays in its folder with one -/
example (w : World (List Text)) (cwd : Text → Option (List (Text × Bool))) : ∃ w' view ls b, Unpacked id s idx 7 w l w' ∧ Views s w' view ∧ Listing s w' ls ∧
    Packed id cwd s idx w' view ls 9 5 b ∧ (∀ p n c, b (p, n) = some c ↔ (p, n, c) ∈ l) ∧ w' (["common".toList], "c.json".toList) = some (.bytes [1, 2, 3]) ∧
    w' (["p".toList, "src".toList, "B".toList], "n.7.bsl".toList) ≠ none ∧ w' (["p".toList, "src".toList], "c.7.json".toList) = none := by
  have hf : ∀ i ∈ l, isCode i.2.1 = true → nodesDepth (M i.1 i.2.1) < 5 := fun i _ _ => V8.OrgIndex.Ex.depth i
  obtain ⟨⟨w', h1⟩, h2⟩ := C79_runs id cwd s idx 7 w l M E (ready w) indexFit noOther fitOwn outside (by
    intro i _ _
    show V8.Areas.areasOut id form.tree [] form.data ≠ none
    rw [← Option.isSome_iff_ne_none]
    decide +kernel) 5 hf
  obtain ⟨⟨view, ls, hv, hls⟩, h3⟩ := h2 w' h1
  obtain ⟨b, hb⟩ := h3 view ls 9 hv hls (by decide)
  have hw := C79_where id s idx 7 w w' l M E (ready w) indexFit fitOwn outside h1
  have m1 : ([], "c.json".toList, Content.bytes [1, 2, 3]) ∈ l :=
    List.mem_cons_of_mem _ (List.mem_cons_of_mem _ (List.mem_cons_of_mem _ (List.mem_cons_of_mem _ List.mem_cons_self)))
  have m2' : (["B".toList], "n.bsl".toList, txt s (text m2)) ∈ l := List.mem_cons_of_mem _ List.mem_cons_self
  refine ⟨w', view, ls, b, h1, hv, hls, hb, C79_folder_back id cwd s idx 7 w w' l M E (ready w) indexFit noOther fitOwn outside h1 9 (by decide) view hv ls hls 5 hf b hb, ?_, ?_, ?_⟩
  · obtain ⟨c, ho, hc⟩ := hw.1 _ m1
    rw [V8.OrgIndex.own_unique ho (.inr (.inr ⟨by decide +kernel, by decide +kernel, rfl⟩))] at hc
    unfold place at hc
    rw [entry_i _ m1, show T ([], "c.json".toList) = some "common/c.json".toList by decide +kernel] at hc
    simp only at hc
    rw [show named s.src.dropLast "common/c.json".toList = (["common".toList], "c.json".toList) by decide +kernel] at hc
    exact hc
  · obtain ⟨c, _, hc⟩ := hw.1 _ m2'
    unfold place at hc
    rw [entry_i _ m2', show T (["B".toList], "n.bsl".toList) = none by decide +kernel] at hc
    simp only at hc
    rw [show (s.src ++ ["B".toList], stored 7 "n.bsl".toList) = (["p".toList, "src".toList, "B".toList], "n.7.bsl".toList) by decide +kernel] at hc
    rw [hc]
    exact Option.some_ne_none _
  · apply Classical.byContradiction
    intro hn
    obtain ⟨i, hi, g1, g2, g3⟩ := hw.2 [] "c.7.json".toList hn
    rw [entry_i i hi] at g1
    have : ∀ y ∈ nm, T y = none → y.1 ≠ [] := by decide +kernel
    exact this _ (mem_nm i hi) g1 g2

/-- a folder the negation is about: its path begins with the text of that of the sources -/
example : inside s (named s.src.dropLast "p/src_common/c.json".toList).1 = true ∧ named s.src.dropLast "p/src_common/c.json".toList =
    (["p".toList, "src_common".toList], "c.json".toList) := by decide +kernel

/-- such an extraction: what was there before stays, the new content is saved under the name with the version -/
example (w : World (List Text)) (hw : ∀ q n, w (["p".toList, "src_common".toList] ++ q, n) = none) :
    ∃ w', Unpacked id s (.cons "c.json".toList (.str "p/src_common/c.json".toList) .nil) 7 w [([], "c.json".toList, .bytes [1, 2, 3])] w' ∧
      w' (["p".toList, "src_common".toList], "c.7.json".toList) = some (.bytes [1, 2, 3]) ∧ w' (["p".toList, "src_common".toList], "c.json".toList) = none := by
  have hclear : ∀ q n, clear s w (["p".toList, "src_common".toList] ++ q, n) = none := fun q n => by
    show (if _ then none else w _) = none
    rw [hw]
    exact ite_self _
  have hhome : V8.OrgIndex.home s.src (.cons "c.json".toList (.str "p/src_common/c.json".toList) .nil) [] "c.json".toList s.deep =
      some (["p".toList, "src_common".toList], "c.json".toList) := by decide +kernel
  refine ⟨put (clear s w) ((["p".toList, "src_common".toList], "c.7.json".toList), .bytes [1, 2, 3]), ⟨[⟨(["p".toList, "src_common".toList], "c.json".toList), .bytes [1, 2, 3], V8.Versions.sameBytes (.bytes [1, 2, 3])⟩], [], [], [], [],
    put (clear s w) ((["p".toList, "src_common".toList], "c.7.json".toList), .bytes [1, 2, 3]), [clear s w],
    put (clear s w) ((["p".toList, "src_common".toList], "c.7.json".toList), .bytes [1, 2, 3]), [], ?_, rfl, rfl, .refl _, .refl _, ?_, .done _, rfl⟩, if_pos rfl, ?_⟩
  · show [([], "c.json".toList, Content.bytes [1, 2, 3])].mapM (plainPut s _) = _
    rw [List.mapM_cons, List.mapM_nil, plainPut, hhome]
    rfl
  · refine .step _ _ _ _ (clear s w) [] _ _ List.mem_cons_self (fun _ => ⟨fun n => ?_, fun n => ?_⟩) ?_ (.done _)
    · have := hclear [] n
      rw [List.append_nil] at this
      rw [this]
      exact ⟨fun h => (by cases h), fun h => absurd rfl h⟩
    · refine ⟨fun h => (by cases h), fun ⟨q, m, h⟩ => absurd (hclear (n :: q) m) h⟩
    · unfold saveOne saveName
      rw [if_pos (show inside s (["p".toList, "src_common".toList], "c.json".toList).1 = true by decide +kernel)]
      rw [if_neg (by decide), show near [] (["p".toList, "src_common".toList], "c.json".toList).2 7 = none by decide +kernel]
      simp only [show descentName "c.json".toList 7 = "c.7.json".toList by decide +kernel, Option.map_some]
  · refine (if_neg (by decide +kernel)).trans ?_
    have := hclear [] "c.json".toList
    rw [List.append_nil] at this
    exact this

end Ex

end V8.VersIndex
