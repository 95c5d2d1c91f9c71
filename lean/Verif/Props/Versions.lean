import Verif.Versions
import Verif.Props.Org
import Verif.Props.OrgIndex
import Verif.Props.Descent
/-
C75: a whole folder with versions.  What extraction at version `d` lays out is what a build at version `d`, or any later one, puts together again.
-/
namespace V8.Versions
open V8.Str V8.Enc V8.Dec V8.Code V8.Brace V8.Descent
open V8.Org (Sys Content World Item Write isCode isElem put puts clear txt texts forms tasks areasOf ModuleOk FormOk codeAreas elemAreas Ready)

variable {V : Type}

/-! ### specification -/

/-- the name a file of the product has in the sources: with the version before the extension; files of elements have none -/
def stored (d : Nat) (n : Text) : Text := if isElem n then n else descentName n d

/-- the names in the folder `p` of the sources -/
def storedNames (d : Nat) (l : List (Item V)) (p : Dir) : Folder := (l.filter (fun i => i.1 = p)).map (fun i => (stored d i.2.1, some []))

/-- a folder whose names can carry the version `d` -/
structure Fit (s : Sys) (d : Nat) (l : List (Item V)) : Prop where
  /-- a version is given -/
  deep : s.deep = true
  /-- at the base version no name looks like one with a version (`Configuration.802.bsl`) -/
  base : d = 0 → ∀ i ∈ l, removeDescent i.2.1 = some i.2.1
  /-- every name has an extension -/
  dots : ∀ i ∈ l, '.' ∈ i.2.1
  /-- no file already has a name with this version of another -/
  once : ∀ i ∈ l, ∀ j ∈ l, i.1 = j.1 → isElem j.2.1 = false → i.2.1 = descentName j.2.1 d → i.2.1 = j.2.1
  /-- files are no folders, nor are they called like one once they have the version -/
  folders : ∀ i ∈ l, ∀ j ∈ l, ¬ i.1 ++ [i.2.1] <+: j.1 ∧ ¬ i.1 ++ [stored d i.2.1] <+: j.1
  /-- no file looks like a version of another one -/
  alone : ∀ i ∈ l, ClearNames (storedNames d l i.1) i.2.1
  /-- ... nor, for modules, like a version of that version -/
  aloneAgain : ∀ i ∈ l, isCode i.2.1 = true → ClearNames (storedNames d l i.1) (descentName i.2.1 d)

/-- the areas of the folder lie outside the source folder, also as texts -/
def AreasOutside (s : Sys) (l : List (Item V)) (M : Dir → Text → List Code.Node) : Prop := ∀ a ∈ codeAreas s M l, inside s a.1.1 = false

/-! ### names -/

theorem pathOf_append (p q : Dir) : V8.Path.pathOf (p ++ q) = V8.Path.pathOf p ++ V8.Path.pathOf q := by
  unfold V8.Path.pathOf
  rw [List.flatMap_append]

theorem inside_prefix (s : Sys) (p : Dir) : inside s (s.src ++ p) = true := by
  unfold inside
  rw [Descent.starts_iff, pathOf_append]
  exact List.prefix_append _ _

theorem outside_prefix (s : Sys) (p : Dir) (h : inside s p = false) : ¬ s.src <+: p := by
  rintro ⟨q, rfl⟩
  rw [inside_prefix] at h
  cases h

theorem descentName_inj2 (a b : Text) (v u : Nat) (hv : 1 ≤ v) (hu : 1 ≤ u) (h : descentName a v = descentName b u) : a = b ∧ v = u := by
  have h1 := congrArg (split '.') h
  rw [split_descentName a v hv, split_descentName b u hu] at h1
  have h2 : (split '.' a).dropLast = (split '.' b).dropLast ∧ [showNat v, ext a] = [showNat u, ext b] := by
    have hl := congrArg List.length h1
    rw [List.length_append, List.length_append] at hl
    exact List.append_inj h1 (by simpa using hl)
  have h3 : showNat v = showNat u ∧ ext a = ext b := by
    have := h2.2
    injection this with g1 g2
    injection g2 with g2 _
    exact ⟨g1, g2⟩
  refine ⟨?_, showNat_inj h3.1⟩
  have : split '.' a = split '.' b := by rw [parts_eq a, parts_eq b, h2.1, h3.2]
  rw [← join_split '.' a, this, join_split]

theorem descentName_zero (n : Text) : descentName n 0 = n := if_pos rfl

theorem descentName_ne (n : Text) (v : Nat) (hv : 1 ≤ v) : descentName n v ≠ n := by
  intro h
  have h1 := congrArg (fun t => (split '.' t).length) h
  simp only [split_descentName n v hv, List.length_append, List.length_dropLast, List.length_cons, List.length_nil] at h1
  have := List.length_pos_iff.mpr (split_ne '.' n)
  omega

theorem elem_name (n : Text) (h : isElem n = true) : ∃ t, n = t ++ ".elem".toList ++ '.' :: "json".toList := by
  unfold isElem at h
  rw [Bool.and_eq_true, ends_iff] at h
  obtain ⟨t, ht⟩ := h.2
  exact ⟨t, by rw [← ht, List.append_assoc]; rfl⟩

theorem elem_no_int : parseInt "elem".toList = none := by decide +kernel

/-- a file of elements is no version of anything -/
theorem elem_no_version (n : Text) (h : isElem n = true) (a : Text) (v : Nat) (hv : 1 ≤ v) : n ≠ descentName a v := by
  intro he
  obtain ⟨t, rfl⟩ := elem_name n h
  have h1 := congrArg (split '.') he
  rw [split_descentName a v hv, split_base _ _ (by decide), show t ++ ".elem".toList = t ++ '.' :: "elem".toList from rfl, split_base _ _ (by decide),
    List.append_assoc] at h1
  have h2 : ["elem".toList, "json".toList] = [showNat v, ext a] := by
    have hl := congrArg List.length h1
    rw [List.length_append, List.length_append] at hl
    exact (List.append_inj h1 (by simpa using hl)).2
  injection h2 with h3 _
  have := parse_showNat v
  rw [← h3, elem_no_int] at this
  cases this

theorem elem_kept (n : Text) (h : isElem n = true) : removeDescent n = some n := by
  obtain ⟨t, rfl⟩ := elem_name n h
  rw [show t ++ ".elem".toList ++ '.' :: "json".toList = t ++ '.' :: ("elem".toList ++ '.' :: "json".toList) by rw [List.append_assoc]; rfl]
  exact C21_word_unchanged t "elem".toList "json".toList (by decide) (by decide) elem_no_int

theorem version_removed (n : Text) (hd : '.' ∈ n) (d : Nat) (h : 1 ≤ d) : removeDescent (descentName n d) = some n := by
  have he := ext_noDot n
  have hn := file_eq n hd
  rw [hn, descentName_base _ _ he]
  exact C21_suffix_removed_partial _ _ he d h

theorem stored_removed {s : Sys} {d : Nat} {l : List (Item V)} (ok : Fit s d l) (i : Item V) (hi : i ∈ l) : removeDescent (stored d i.2.1) = some i.2.1 := by
  unfold stored
  cases h : isElem i.2.1 with
  | true => exact elem_kept _ h
  | false =>
    rcases Nat.eq_zero_or_pos d with rfl | hp
    · exact (congrArg removeDescent (descentName_zero _)).trans (ok.base rfl i hi)
    · exact version_removed _ (ok.dots i hi) d hp

/-- a file of the folder that is a version of a name is the version `d` of this name -/
theorem version_only {s : Sys} {d : Nat} {l : List (Item V)} (ok : Fit s d l) (n : Text) (hn : '.' ∈ n) (v : Nat) (hv : 1 ≤ v) (j : Item V) (hj : j ∈ l)
    (h : descentName n v = descentName j.2.1 d) : n = j.2.1 ∧ v = d := by
  rcases Nat.eq_zero_or_pos d with rfl | hp
  · rw [descentName_zero] at h
    have h1 := version_removed n hn v hv
    rw [h, ok.base rfl j hj] at h1
    cases h1
    exact absurd h (descentName_ne _ v hv)
  · exact descentName_inj2 _ _ v d hv hp h

theorem stored_inj {s : Sys} {d : Nat} {l : List (Item V)} (ok : Fit s d l) {i j : Item V} (hi : i ∈ l) (hj : j ∈ l) (hp : i.1 = j.1)
    (h : stored d i.2.1 = stored d j.2.1) : i.2.1 = j.2.1 := by
  unfold stored at h
  cases h1 : isElem i.2.1 <;> cases h2 : isElem j.2.1 <;> rw [h1, h2] at h <;> simp only [if_true, Bool.false_eq_true, if_false] at h
  · rcases Nat.eq_zero_or_pos d with rfl | hp
    · rwa [descentName_zero, descentName_zero] at h
    · exact (descentName_inj2 _ _ d d hp hp h).1
  · exact (ok.once j hj i hi hp.symm h1 h.symm).symm
  · exact ok.once i hi j hj hp h2 h
  · exact h

theorem isFile_stored (d : Nat) (l : List (Item V)) (i : Item V) (hi : i ∈ l) : isFile (storedNames d l i.1) (stored d i.2.1) = true := by
  rw [isFile_iff]
  exact ⟨[], List.mem_map.mpr ⟨i, List.mem_filter.mpr ⟨hi, by simp⟩, rfl⟩⟩

/-! ### saving -/

/-- what may be in the source folder while files are saved -/
def Inv (s : Sys) (d : Nat) (l : List (Item V)) (v : World V) : Prop :=
  ∀ p m, v (s.src ++ p, m) ≠ none → ∃ i ∈ l, i.1 = p ∧ isElem i.2.1 = false ∧ m = descentName i.2.1 d

/-- what is saved: a file of the product, or one outside -/
def Good (s : Sys) (l : List (Item V)) (x : Put V) : Prop :=
  (∃ i ∈ l, isElem i.2.1 = false ∧ x.file = (s.src ++ i.1, i.2.1)) ∨ inside s x.file.1 = false

/-- where it goes -/
def kept (s : Sys) (d : Nat) (x : Put V) : Write V := if inside s x.file.1 then ((x.file.1, descentName x.file.2 d), x.content) else (x.file, x.content)

theorem stored_plain (d : Nat) (n : Text) (h : isElem n = false) : stored d n = descentName n d := by
  unfold stored
  rw [h]
  rfl

theorem save_name {s : Sys} {d : Nat} {l : List (Item V)} (ok : Fit s d l) (view : World V) (hv : Inv s d l view) (i : Item V) (hi : i ∈ l)
    (he : isElem i.2.1 = false) (dir : Folder) (hd : Shows view (s.src ++ i.1) dir) (x : Put V) (hx : x.file = (s.src ++ i.1, i.2.1)) :
    saveName view dir d x = some (some (descentName i.2.1 d)) := by
  unfold saveName
  rw [hx]
  simp only
  by_cases hf : isFile dir (descentName i.2.1 d) = true
  · rw [if_pos hf]
  rw [if_neg hf]
  have hsub : ∀ n, isFile dir n = true → ∃ j ∈ l, j.1 = i.1 ∧ isElem j.2.1 = false ∧ n = descentName j.2.1 d :=
    fun n hn => hv i.1 n ((hd.1 n).mp hn)
  have hclear : ClearNames dir i.2.1 := clear_of_mono dir (storedNames d l i.1) _ (fun n hn => by
    obtain ⟨j, hj, j1, j2, rfl⟩ := hsub n hn
    rw [← stored_plain d _ j2, ← j1]
    exact isFile_stored d l j hj) (ok.alone i hi)
  have hnear : near dir i.2.1 d = none := by
    rcases near_spec dir i.2.1 (ok.dots i hi) hclear d with ⟨v, ⟨hv1, hv2⟩, _⟩ | ⟨_, hn⟩
    · obtain ⟨j, hj, j1, j2, hne⟩ := hsub _ hv2
      obtain ⟨_, h2⟩ := version_only ok _ (ok.dots i hi) v hv1 j hj hne
      rw [h2] at hv2
      exact absurd hv2 hf
    · rw [hn, if_neg]
      intro hm
      obtain ⟨⟨n, c⟩, hp, hn⟩ := List.mem_map.mp hm
      simp only at hn
      subst hn
      cases c with
      | some c =>
        have hm := (isFile_iff _ _).mpr ⟨c, hp⟩
        obtain ⟨j, hj, j1, j2, hne⟩ := hsub i.2.1 hm
        rw [hne, ← ok.once i hi j hj j1.symm j2 hne] at hm
        exact hf hm
      | none =>
        obtain ⟨q, m, hq⟩ := (hd.2 i.2.1).mp hp
        rw [List.append_assoc] at hq
        obtain ⟨j, hj, j1, _, _⟩ := hv _ _ hq
        exact (ok.folders i hi j hj).1 ⟨q, by rw [j1, List.append_assoc]; rfl⟩
  rw [hnear]

theorem save_one {s : Sys} {d : Nat} {l : List (Item V)} (ok : Fit s d l) (view : World V) (hv : Inv s d l view) (x : Put V) (hx : Good s l x)
    (dir : Folder) (hd : inside s x.file.1 = true → Shows view x.file.1 dir) (w : World V) : saveOne s d view w dir x = some (put w (kept s d x)) := by
  unfold saveOne kept
  rcases hx with ⟨i, hi, he, hx⟩ | hx
  · have h1 : inside s x.file.1 = true := by rw [hx]; exact inside_prefix s i.1
    rw [if_pos h1, if_pos h1, save_name ok view hv i hi he dir (by have := hd h1; rw [hx] at this; exact this) x hx]
    rw [hx]
    rfl
  · rw [if_neg (by rw [hx]; exact Bool.false_ne_true), if_neg (by rw [hx]; exact Bool.false_ne_true)]

theorem inv_put {s : Sys} {d : Nat} {l : List (Item V)} (w : World V) (hw : Inv s d l w) (x : Put V) (hx : Good s l x) : Inv s d l (put w (kept s d x)) := by
  intro p m hm
  by_cases hf : (s.src ++ p, m) = (kept s d x).1
  · unfold kept at hf
    rcases hx with ⟨i, hi, he, hx⟩ | hx
    · have h1 : inside s x.file.1 = true := by rw [hx]; exact inside_prefix s i.1
      rw [if_pos h1, hx] at hf
      obtain ⟨g1, g2⟩ := Org.file_inj hf
      exact ⟨i, hi, g1.symm, he, g2⟩
    · rw [if_neg (by rw [hx]; exact Bool.false_ne_true)] at hf
      simp only at hf
      rw [← hf] at hx
      simp only [inside_prefix] at hx
      cases hx
  · have hf' : (if (s.src ++ p, m) = (kept s d x).1 then some (kept s d x).2 else w (s.src ++ p, m)) ≠ none := hm
    rw [if_neg hf] at hf'
    exact hw p m hf'

theorem saves_puts {s : Sys} {d : Nat} {l : List (Item V)} (ok : Fit s d l) (pool : Bool) : ∀ (L : List (Put V)) (w : World V) (h : List (World V)) (v : World V) (h' : List (World V)),
    Saves s d pool (w :: h) L (v :: h') → (∀ u ∈ w :: h, Inv s d l u) → (∀ x ∈ L, Good s l x) → v = puts w (L.map (kept s d)) ∧ Inv s d l v
  | [], w, h, v, h', hs, hi, _ => by
    cases hs
    exact ⟨rfl, hi _ List.mem_cons_self⟩
  | x :: L, w, h, v, h', hs, hi, hg => by
    cases hs with
    | step _ _ _ _ view dir w' _ h1 h2 h3 h4 =>
      have h1' : view ∈ w :: h := by
        rcases List.mem_cons.mp h1 with rfl | h1
        · exact List.mem_cons_self
        · cases pool with
          | true => exact List.mem_cons_of_mem _ h1
          | false => cases h1
      rw [save_one ok view (hi view h1') x (hg x List.mem_cons_self) dir h2] at h3
      cases h3
      refine saves_puts ok pool L _ _ v h' h4 ?_ (fun y hy => hg y (List.mem_cons_of_mem _ hy))
      intro u hu
      rcases List.mem_cons.mp hu with rfl | hu
      · exact inv_put w (hi w List.mem_cons_self) x (hg x List.mem_cons_self)
      · exact hi u hu

/-! ### the writes of a run are those of a run without versions, under other names -/

/-- the file a file is kept in -/
def home (s : Sys) (d : Nat) (f : Org.File) : Org.File := if s.src <+: f.1 ∧ isElem f.2 = false then (f.1, descentName f.2 d) else f

def asWrite (x : Put V) : Write V := (x.file, x.content)

theorem kept_home (s : Sys) (d : Nat) (l : List (Item V)) (x : Put V) (hx : Good s l x) : kept s d x = (home s d (asWrite x).1, (asWrite x).2) := by
  unfold kept home asWrite
  rcases hx with ⟨i, hi, he, hx⟩ | hx
  · rw [hx]
    simp only
    rw [if_pos (inside_prefix s i.1), if_pos ⟨List.prefix_append _ _, he⟩]
  · rw [if_neg (by rw [hx]; exact Bool.false_ne_true)]
    simp only
    rw [if_neg (fun h => outside_prefix s _ hx h.1)]

theorem code_same (s : Sys) (i : Item V) : (codePuts s i).map (fun l => l.map asWrite) = Org.codeWrites s i := by
  unfold codePuts Org.codeWrites
  cases i.2.2 with
  | elems e => rfl
  | bytes b =>
    simp only
    cases utf8SigText b with
    | none => rfl
    | some t =>
      rw [Option.bind_some, Option.bind_some]
      cases V8.Code.unpack (universal t) with
      | none => rfl
      | some a =>
        rw [Option.map_some, Option.map_some, Option.map_some, List.map_filterMap]
        congr 1
        refine List.filterMap_congr (fun p _ => ?_)
        by_cases h1 : p.1 = "root".toList
        · rw [if_pos h1, if_pos h1]; rfl
        rw [if_neg h1, if_neg h1]
        by_cases h2 : p.2.typ = .incr
        · rw [if_pos h2, if_pos h2]; rfl
        rw [if_neg h2, if_neg h2]; rfl

theorem code_tasks (s : Sys) : ∀ (l : List (Item V)) (code : List (Put V)), (l.mapM (codePuts s)).map List.flatten = some code →
    tasks (Org.codeWrites s) l = some (code.map asWrite) := by
  intro l
  induction l with
  | nil =>
    intro code h
    rw [List.mapM_nil] at h
    cases h
    rfl
  | cons a l ih =>
    intro code h
    rw [Option.map_eq_some_iff] at h
    obtain ⟨r, hr, rfl⟩ := h
    obtain ⟨b, bs, h1, h2, rfl⟩ := Org.mapM_cons _ a l r hr
    have ht := ih bs.flatten (by rw [h2]; rfl)
    rw [tasks, Option.map_eq_some_iff] at ht
    obtain ⟨r', hr', he⟩ := ht
    rw [tasks, List.mapM_cons, ← code_same, h1, hr']
    show some (List.flatten (b.map asWrite :: r')) = _
    rw [List.flatten_cons, he, List.flatten_cons, List.map_append]

theorem plain_same (s : Sys) (l : List (Item V)) : (plainPuts s l).map asWrite = Org.plainWrites s l := by
  unfold plainPuts Org.plainWrites
  rw [List.map_map]
  rfl

theorem puts_map (r : Org.File → Org.File) (f : Org.File) : ∀ (L : List (Write V)) (w w0 : World V), (∀ x ∈ L, r x.1 = r f → x.1 = f) → w (r f) = w0 f →
    puts w (L.map (fun x => (r x.1, x.2))) (r f) = puts w0 L f
  | [], w, w0, _, h => h
  | x :: L, w, w0, hi, h => by
    show puts (put w (r x.1, x.2)) (L.map (fun x => (r x.1, x.2))) (r f) = puts (put w0 x) L f
    refine puts_map r f L _ _ (fun y hy => hi y (List.mem_cons_of_mem _ hy)) ?_
    show (if r f = r x.1 then some x.2 else w (r f)) = (if f = x.1 then some x.2 else w0 f)
    by_cases hf : f = x.1
    · rw [if_pos hf, if_pos (by rw [hf])]
    · rw [if_neg hf, if_neg (fun e => hf (hi x List.mem_cons_self e.symm).symm), h]

/-! ### what extraction leaves -/

structure Laid (names : V → List Text) (s : Sys) (d : Nat) (w : World V) (l : List (Item V)) (M : Dir → Text → List Code.Node) (E : Dir → Text → V8.Areas.Elems V)
    (w' : World V) : Prop where
  plain : ∀ i ∈ l, isCode i.2.1 = false → isElem i.2.1 = false → w' (s.src ++ i.1, descentName i.2.1 d) = some i.2.2
  code : ∀ i ∈ l, isCode i.2.1 = true → w' (s.src ++ i.1, descentName i.2.1 d) = some (txt s (nodesOwn (M i.1 i.2.1)).flatten)
  elem : ∀ i ∈ l, isElem i.2.1 = true → ∃ tree data, V8.Areas.areasOut names (E i.1 i.2.1).tree [] (E i.1 i.2.1).data =
    some (tree, data, areasOf names (E i.1 i.2.1)) ∧ w' (s.src ++ i.1, i.2.1) = some (.elems ⟨tree, data, (E i.1 i.2.1).extra⟩)
  area : ∀ a ∈ codeAreas s M l, w' a.1 = some (txt s a.2.2)
  elemArea : ∀ a ∈ elemAreas names s E l, w' a.1 = some (.elems a.2)
  only : ∀ p m, w' (s.src ++ p, m) ≠ none → ∃ i ∈ l, i.1 = p ∧ m = stored d i.2.1
  rest : ∀ f, ¬ s.src <+: f.1 → f ∉ (codeAreas s M l).map (·.1) → f ∉ (elemAreas names s E l).map (·.1) → w' f = w f

theorem good_code {names : V → List Text} {s : Sys} {w : World V} {l : List (Item V)} {M : Dir → Text → List Code.Node} {E : Dir → Text → V8.Areas.Elems V}
    (rd : Ready names s w l M E) (out : AreasOutside s l M) (code : List (Put V))
    (hc : ((l.filter (fun i => isCode i.2.1)).mapM (codePuts s)).map List.flatten = some code) : ∀ x ∈ code, Good s l x := by
  intro x hx
  have ht := code_tasks s _ code hc
  obtain ⟨i, hi, u, hu, hxu⟩ := (Org.tasks_mem _ _ _ ht).2 (asWrite x) (List.mem_map_of_mem hx)
  rw [List.mem_filter] at hi
  obtain ⟨m1, m2⟩ := rd.module i hi.1 hi.2
  obtain ⟨u', hu', hm⟩ := Org.code_writes s i _ m1 m2
  rw [hu] at hu'
  cases hu'
  have hne : isElem i.2.1 = false := by
    rcases Org.kind_cases i.2.1 with ⟨_, h⟩ | ⟨h, _⟩ | ⟨h, _⟩
    · exact h
    · rw [hi.2] at h; cases h
    · rw [hi.2] at h; cases h
  rcases (hm _).mp hxu with h | ⟨p, hp, ht, h⟩
  · refine .inl ⟨i, hi.1, hne, ?_⟩
    injection h
  · right
    have hf : x.file = parse s.env p.1 (s.src ++ i.1) := by injection h
    rw [hf]
    exact out (parse s.env p.1 (s.src ++ i.1), p.2.1, p.2.2.flatten) (List.mem_flatMap.mpr ⟨i, List.mem_filter.mpr hi, List.mem_map.mpr ⟨p, hp, rfl⟩⟩)

theorem good_plain (s : Sys) (l : List (Item V)) : ∀ x ∈ plainPuts s l, Good s l x := by
  intro x hx
  unfold plainPuts at hx
  obtain ⟨i, hi, rfl⟩ := List.mem_map.mp hx
  rw [List.mem_filter, Bool.and_eq_true] at hi
  exact .inl ⟨i, hi.1, by have := hi.2.2; simpa using this, rfl⟩

theorem laid {names : V → List Text} {s : Sys} {d : Nat} {w : World V} {l : List (Item V)} {M : Dir → Text → List Code.Node} {E : Dir → Text → V8.Areas.Elems V}
    (rd : Ready names s w l M E) (ok : Fit s d l) (out : AreasOutside s l M) {w' : World V} (h : Unpacked names s d w l w') : Laid names s d w l M E w' := by
  obtain ⟨code, elem, code', elem', v0, h0, v, hh, hc, he, pc, pe, hs0, hs, rfl⟩ := h
  have hgood : ∀ x ∈ plainPuts s l ++ code', Good s l x := by
    intro x hx
    rcases List.mem_append.mp hx with hx | hx
    · exact good_plain s l x hx
    · exact good_code rd out code hc x (pc.mem_iff.mp hx)
  obtain ⟨hv0, hinv⟩ := saves_puts ok false _ _ _ _ _ hs0 (by
    intro u hu p m hm
    rw [List.mem_singleton] at hu
    subst hu
    exact absurd (if_pos (List.prefix_append _ _)) hm) (good_plain s l)
  have hv : v = puts (clear s w) ((plainPuts s l ++ code').map (kept s d)) := by
    have := (saves_puts ok true _ _ _ _ _ hs (by
      intro u hu
      rw [List.mem_singleton] at hu
      rw [hu]
      exact hinv) (fun x hx => hgood x (List.mem_append_right _ hx))).1
    rw [this, hv0, List.map_append]
    unfold puts
    rw [List.foldl_append]
  -- the files of the areas of elements
  have helem : ∀ x ∈ elem', (∃ i ∈ l, isElem i.2.1 = true ∧ x.1 = (s.src ++ i.1, i.2.1)) ∨ ¬ s.src <+: x.1.1 := by
    intro x hx
    obtain ⟨i, hi, u, hu, hxu⟩ := (Org.tasks_mem _ _ _ he).2 x (pe.mem_iff.mp hx)
    rw [List.mem_filter] at hi
    obtain ⟨m1, m2⟩ := rd.form i hi.1 hi.2
    obtain ⟨tree, data, _, hm⟩ := Org.elem_writes names s i _ m1 m2 u hu
    rcases (hm x).mp hxu with rfl | ⟨a, ha, rfl⟩
    · exact .inl ⟨i, hi.1, hi.2, rfl⟩
    · exact .inr (rd.outsideElems (Org.elemFile s a.1 (s.src ++ i.1), a.2) (List.mem_flatMap.mpr ⟨i, List.mem_filter.mpr hi, List.mem_map.mpr ⟨a, ha, rfl⟩⟩))
  -- the same run without versions
  have horg : Org.Unpacked names s w l (puts (clear s w) (Org.plainWrites s l ++ code'.map asWrite ++ elem')) :=
    ⟨code.map asWrite, elem, _, elem', code_tasks s _ _ hc, he, pc.map _, pe, rfl⟩
  have hl := Org.laid rd horg
  have hw' : puts v elem' = puts (clear s w) ((Org.plainWrites s l ++ code'.map asWrite ++ elem').map (fun x => (home s d x.1, x.2))) := by
    rw [← plain_same, ← List.map_append, List.map_append, List.map_map]
    have h1 : (plainPuts s l ++ code').map ((fun x : Write V => (home s d x.1, x.2)) ∘ asWrite) = (plainPuts s l ++ code').map (kept s d) :=
      List.map_congr_left (fun x hx => (kept_home s d l x (hgood x hx)).symm)
    have h2 : elem'.map (fun x : Write V => (home s d x.1, x.2)) = elem' := by
      conv => rhs; rw [← List.map_id elem']
      refine List.map_congr_left (fun x hx => ?_)
      show (home s d x.1, x.2) = x
      have : home s d x.1 = x.1 := by
        unfold home
        rw [if_neg]
        rintro ⟨g1, g2⟩
        rcases helem x hx with ⟨i, _, k, hx'⟩ | hn
        · rw [hx'] at g2
          rw [k] at g2
          cases g2
        · exact hn g1
      rw [this]
    rw [h1, h2]
    unfold puts
    rw [List.foldl_append]
    have hv' : v = List.foldl put (clear s w) ((plainPuts s l ++ code').map (kept s d)) := hv
    rw [← hv']
  have hdom : ∀ x ∈ Org.plainWrites s l ++ code'.map asWrite ++ elem', (∃ i ∈ l, x.1 = (s.src ++ i.1, i.2.1)) ∨ ¬ s.src <+: x.1.1 := by
    intro x hx
    rcases List.mem_append.mp hx with hx | hx
    · rw [← plain_same, ← List.map_append] at hx
      obtain ⟨y, hy, rfl⟩ := List.mem_map.mp hx
      rcases hgood y hy with ⟨i, hi, _, h⟩ | h
      · exact .inl ⟨i, hi, h⟩
      · exact .inr (outside_prefix s _ h)
    · rcases helem x hx with ⟨i, hi, _, h⟩ | h
      · exact .inl ⟨i, hi, h⟩
      · exact .inr h
  have home_item : ∀ i ∈ l, home s d (s.src ++ i.1, i.2.1) = (s.src ++ i.1, stored d i.2.1) := by
    intro i _
    unfold home stored
    cases h : isElem i.2.1 with
    | true => rw [if_neg (fun hh => by cases hh.2)]; rfl
    | false => rw [if_pos ⟨List.prefix_append _ _, rfl⟩]; rfl
  have home_out : ∀ f : Org.File, ¬ s.src <+: f.1 → home s d f = f := fun f hf => if_neg (fun h => hf h.1)
  have hitem : ∀ i ∈ l, puts v elem' (s.src ++ i.1, stored d i.2.1) =
      puts (clear s w) (Org.plainWrites s l ++ code'.map asWrite ++ elem') (s.src ++ i.1, i.2.1) := by
    intro i hi
    rw [hw', ← home_item i hi]
    refine puts_map (home s d) (s.src ++ i.1, i.2.1) _ _ _ ?_ ?_
    · intro x hx hxe
      rw [home_item i hi] at hxe
      rcases hdom x hx with ⟨j, hj, hxj⟩ | hn
      · rw [hxj, home_item j hj] at hxe
        obtain ⟨g1, g2⟩ := Org.file_inj hxe
        have := stored_inj ok hj hi g1 g2
        rw [hxj, g1, this]
      · rw [home_out _ hn] at hxe
        rw [hxe] at hn
        exact absurd (List.prefix_append _ _) hn
    · rw [home_item i hi]
      show (if s.src <+: s.src ++ i.1 then none else w _) = (if s.src <+: s.src ++ i.1 then none else w _)
      rw [if_pos (List.prefix_append _ _), if_pos (List.prefix_append _ _)]
  have hout : ∀ f : Org.File, ¬ s.src <+: f.1 → puts v elem' f = puts (clear s w) (Org.plainWrites s l ++ code'.map asWrite ++ elem') f := by
    intro f hf
    have key := puts_map (home s d) f (Org.plainWrites s l ++ code'.map asWrite ++ elem') (clear s w) (clear s w) (by
      intro x hx hxe
      rw [home_out f hf] at hxe
      rcases hdom x hx with ⟨j, hj, hxj⟩ | hn
      · rw [hxj, home_item j hj] at hxe
        rw [← hxe] at hf
        exact absurd (List.prefix_append _ _) hf
      · rw [home_out _ hn] at hxe
        exact hxe) (by rw [home_out f hf])
    rw [home_out f hf] at key
    rw [hw', key]
  refine ⟨?_, ?_, ?_, ?_, ?_, ?_, ?_⟩
  · intro i hi k1 k2
    rw [← stored_plain d _ k2, hitem i hi]
    exact hl.plain i hi k1 k2
  · intro i hi k1
    have k2 : isElem i.2.1 = false := by
      unfold isElem
      rw [k1]
      rfl
    rw [← stored_plain d _ k2, hitem i hi]
    exact hl.code i hi k1
  · intro i hi k
    obtain ⟨tree, data, h1, h2⟩ := hl.elem i hi k
    refine ⟨tree, data, h1, ?_⟩
    have hst : stored d i.2.1 = i.2.1 := by
      unfold stored
      rw [k]
      rfl
    have := hitem i hi
    rw [hst] at this
    rw [this]
    exact h2
  · intro a ha
    rw [hout _ (rd.outside a ha)]
    exact hl.area a ha
  · intro a ha
    rw [hout _ (rd.outsideElems a ha)]
    exact hl.elemArea a ha
  · intro p m hm
    apply Classical.byContradiction
    intro hno
    apply hm
    rw [hw', Org.puts_none _ _ _ ?_]
    · exact if_pos (List.prefix_append _ _)
    · intro y hy he
      obtain ⟨x, hx, rfl⟩ := List.mem_map.mp hy
      simp only at he
      rcases hdom x hx with ⟨j, hj, hxj⟩ | hn
      · rw [hxj, home_item j hj] at he
        obtain ⟨g1, g2⟩ := Org.file_inj he
        exact hno ⟨j, hj, g1, g2.symm⟩
      · rw [home_out _ hn] at he
        rw [he] at hn
        exact hn (List.prefix_append _ _)
  · intro f hf h1 h2
    rw [hout f hf]
    exact hl.rest f hf h1 h2

end V8.Versions
