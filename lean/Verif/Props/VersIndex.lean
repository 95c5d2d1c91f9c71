import Verif.VersIndex
import Verif.Props.VersionsBack
/-
C79: a whole folder with versions and an index.  What extraction at version `d` with an index lays out is what a build at version `d`, or any later one, with
that index puts together again.
-/
namespace V8.VersIndex
open V8.Str V8.Enc V8.Dec V8.Code V8.Brace V8.Descent V8.Json V8.Index
open V8.Org (Sys Content World Item Write isCode isElem put puts clear txt texts forms tasks areasOf ModuleOk FormOk codeAreas elemAreas Ready)
open V8.OrgIndex (Tidy CleanEntry named NoOther target Job jobOf folder runJob runJobs indexJobs base)
open V8.Versions (Put Saves Views Listing stored Fit AreasOutside inside Good kept asWrite Stands)

variable {V : Type}

/-! ### specification -/

/-- the entry of the index for a file of the product -/
def entryOf (idx : D) (p : Dir) (n : Text) : Option Text := match (J.obj idx).at (p ++ [n]) with
  | some (.str e) => if e = [] then none else some e
  | _ => none

/-- where a file of the product belongs: the file its entry names, seen from two folders above the sources and without a version, or its own folder, under the
name with the version -/
def place (s : Sys) (idx : D) (d : Nat) (p : Dir) (n : Text) : Org.File := match entryOf idx p n with
  | some e => named s.src.dropLast e
  | none => (s.src ++ p, stored d n)

/-- the files that stay in the source folder -/
def own (idx : D) (l : List (Item V)) : List (Item V) := l.filter (fun i => (entryOf idx i.1 i.2.1).isNone)

/-- an index that fits a folder `l` when a version is given -/
structure IndexFit (names : V → List Text) (s : Sys) (idx : D) (l : List (Item V)) (M : Dir → Text → List Code.Node) (E : Dir → Text → V8.Areas.Elems V) : Prop where
  wf : idx.WF
  tidy : Tidy idx
  srcNe : s.src ≠ []
  srcPlain : ∀ c ∈ s.src, V8.Path.Plain c
  paths : ∀ i ∈ l, (∀ c ∈ i.1, V8.Path.Plain c) ∧ areasKey ∉ i.1 ++ [i.2.1]
  /-- every entry names a file -/
  clean : ∀ q k e, areasKey ∉ q ++ [k] → (J.obj idx).at (q ++ [k]) = some (.str e) → e ≠ [] → CleanEntry e
  /-- files of the product are no folders of the index, folders of the product no files of the index, and no `*` entry is for them -/
  file : ∀ i ∈ l, ∀ v, (J.obj idx).at (i.1 ++ [i.2.1]) = some v → v = .null ∨ ∃ e, v = .str e
  way : ∀ i ∈ l, ∀ q, q <+: i.1 → (J.obj idx).at q = none ∨ ∃ d, (J.obj idx).at q = some (.obj d)
  noWild : ∀ i ∈ l, (J.obj idx).at (i.1 ++ [['*']]) = none
  /-- the entries are for files outside the source folder, also as texts -/
  outside : ∀ i ∈ l, ∀ e, entryOf idx i.1 i.2.1 = some e → inside s (named s.src.dropLast e).1 = false
  /-- no two of them name the same file, and none that of an area -/
  once : ∀ i ∈ l, ∀ j ∈ l, ∀ e e', entryOf idx i.1 i.2.1 = some e → entryOf idx j.1 j.2.1 = some e' → named s.src.dropLast e = named s.src.dropLast e' →
    i.1 = j.1 ∧ i.2.1 = j.2.1
  free : ∀ i ∈ l, ∀ e, entryOf idx i.1 i.2.1 = some e → ∀ a ∈ codeAreas s M l, named s.src.dropLast e ≠ a.1
  freeElems : ∀ i ∈ l, ∀ e, entryOf idx i.1 i.2.1 = some e → ∀ a ∈ elemAreas names s E l, named s.src.dropLast e ≠ a.1
  /-- files of elements stay files of elements -/
  ext : ∀ i ∈ l, ∀ e, entryOf idx i.1 i.2.1 = some e → isElem i.2.1 = true → isElem (named s.src.dropLast e).2 = true

/-! ### the places without versions -/

theorem target_entry (src : Dir) (idx : D) (p : Dir) (n : Text) : target src idx p n true = match entryOf idx p n with
    | some e => named src.dropLast e
    | none => (src ++ p, n) := by
  unfold target entryOf
  cases h : (J.obj idx).at (p ++ [n]) with
  | none => rfl
  | some v =>
    cases v with
    | str e =>
      simp only
      by_cases he : e = []
      · rw [if_pos he, if_pos he]
      · rw [if_neg he, if_neg he]
        rfl
    | _ => rfl

theorem target_own {src : Dir} {idx : D} {p : Dir} {n : Text} (h : entryOf idx p n = none) : target src idx p n true = (src ++ p, n) := by
  rw [target_entry, h]

theorem target_moved {src : Dir} {idx : D} {p : Dir} {n e : Text} (h : entryOf idx p n = some e) : target src idx p n true = named src.dropLast e := by
  rw [target_entry, h]

theorem mem_own {idx : D} {l : List (Item V)} {i : Item V} : i ∈ own idx l ↔ i ∈ l ∧ entryOf idx i.1 i.2.1 = none := by
  unfold own
  rw [List.mem_filter, Option.isNone_iff_eq_none]

theorem placed {names : V → List Text} {s : Sys} {idx : D} {w : World V} {l : List (Item V)} {M : Dir → Text → List Code.Node} {E : Dir → Text → V8.Areas.Elems V}
    (rd : Ready names s w l M E) (hd : s.deep = true) (ok : IndexFit names s idx l M E) :
    V8.OrgIndex.Placed names s idx (fun p n => target s.src idx p n true) l M E := by
  refine ⟨?_, ?_, ?_, ?_, ?_, ?_⟩
  · intro i hi
    rw [hd]
    exact V8.OrgIndex.home_at true s.src idx ok.srcPlain i.1 (ok.paths i hi).1 i.2.1
      (fun e he hne => ok.clean i.1 i.2.1 e (ok.paths i hi).2 he hne) (ok.file i hi) (ok.noWild i hi) (ok.way i hi)
  · intro i hi
    cases h : entryOf idx i.1 i.2.1 with
    | none => exact .inl (target_own h)
    | some e =>
      right
      rw [target_moved h]
      exact Versions.outside_prefix s _ (ok.outside i hi e h)
  · intro i hi j hj he
    cases h : entryOf idx i.1 i.2.1 with
    | none =>
      rw [target_own h] at he
      cases h' : entryOf idx j.1 j.2.1 with
      | none =>
        rw [target_own h'] at he
        exact Org.file_inj he
      | some e =>
        rw [target_moved h'] at he
        refine absurd (List.prefix_append s.src i.1) ?_
        rw [show s.src ++ i.1 = (named s.src.dropLast e).1 from congrArg Prod.fst he]
        exact Versions.outside_prefix s _ (ok.outside j hj e h')
    | some e =>
      rw [target_moved h] at he
      cases h' : entryOf idx j.1 j.2.1 with
      | none =>
        rw [target_own h'] at he
        refine absurd (List.prefix_append s.src j.1) ?_
        rw [show s.src ++ j.1 = (named s.src.dropLast e).1 from (congrArg Prod.fst he).symm]
        exact Versions.outside_prefix s _ (ok.outside i hi e h)
      | some e' =>
        rw [target_moved h'] at he
        exact ok.once i hi j hj e e' h h' he
  · intro i hi a ha
    cases h : entryOf idx i.1 i.2.1 with
    | none =>
      rw [target_own h]
      exact fun he => rd.outside a ha (by rw [← he]; exact List.prefix_append _ _)
    | some e =>
      rw [target_moved h]
      exact ok.free i hi e h a ha
  · intro i hi a ha
    cases h : entryOf idx i.1 i.2.1 with
    | none =>
      rw [target_own h]
      exact fun he => rd.outsideElems a ha (by rw [← he]; exact List.prefix_append _ _)
    | some e =>
      rw [target_moved h]
      exact ok.freeElems i hi e h a ha
  · intro i hi k
    cases h : entryOf idx i.1 i.2.1 with
    | none => rw [target_own h]; exact k
    | some e => rw [target_moved h]; exact ok.ext i hi e h k

/-! ### what is saved -/

theorem code_same (s : Sys) (idx : D) (i : Item V) : (codePuts s idx i).map (fun l => l.map asWrite) = V8.OrgIndex.codeWrites s idx i := by
  unfold codePuts V8.OrgIndex.codeWrites
  cases i.2.2 with
  | elems e => rfl
  | bytes b =>
    simp only
    cases utf8SigText b with
    | none => rfl
    | some t =>
      rw [Option.bind_some, Option.bind_some]
      cases V8.Code.unpack (universal t) with
      | none => rfl
      | some a =>
        rw [Option.bind_some, Option.bind_some]
        cases V8.OrgIndex.home s.src idx i.1 i.2.1 s.deep with
        | none => rfl
        | some h =>
          rw [Option.map_some, Option.map_some, Option.map_some, List.map_filterMap]
          congr 1
          refine List.filterMap_congr (fun p _ => ?_)
          by_cases h1 : p.1 = "root".toList
          · rw [if_pos h1, if_pos h1]; rfl
          rw [if_neg h1, if_neg h1]
          by_cases h2 : p.2.typ = .incr
          · rw [if_pos h2, if_pos h2]; rfl
          rw [if_neg h2, if_neg h2]; rfl

theorem code_tasks (s : Sys) (idx : D) : ∀ (l : List (Item V)) (code : List (Put V)), (l.mapM (codePuts s idx)).map List.flatten = some code →
    tasks (V8.OrgIndex.codeWrites s idx) l = some (code.map asWrite) := by
  intro l
  induction l with
  | nil =>
    intro code h
    rw [List.mapM_nil] at h
    cases h
    rfl
  | cons a l ih =>
    intro code h
    rw [Option.map_eq_some_iff] at h
    obtain ⟨r, hr, rfl⟩ := h
    obtain ⟨b, bs, h1, h2, rfl⟩ := Org.mapM_cons _ a l r hr
    have ht := ih bs.flatten (by rw [h2]; rfl)
    rw [tasks, Option.map_eq_some_iff] at ht
    obtain ⟨r', hr', he⟩ := ht
    rw [tasks, List.mapM_cons, ← code_same, h1, hr']
    show some (List.flatten (b.map asWrite :: r')) = _
    rw [List.flatten_cons, he, List.flatten_cons, List.map_append]

theorem plain_tasks (s : Sys) (idx : D) : ∀ (l : List (Item V)) (plain : List (Put V)), l.mapM (plainPut s idx) = some plain →
    tasks (V8.OrgIndex.plainWrites s idx) l = some (plain.map asWrite) := by
  intro l
  induction l with
  | nil =>
    intro plain h
    rw [List.mapM_nil] at h
    cases h
    rfl
  | cons a l ih =>
    intro plain h
    obtain ⟨b, bs, h1, h2, rfl⟩ := Org.mapM_cons _ a l plain h
    have ht := ih bs h2
    rw [tasks, Option.map_eq_some_iff] at ht
    obtain ⟨r', hr', he⟩ := ht
    unfold plainPut at h1
    rw [Option.map_eq_some_iff] at h1
    obtain ⟨f, hf, rfl⟩ := h1
    have hp : V8.OrgIndex.plainWrites s idx a = some [(f, a.2.2)] := by
      unfold V8.OrgIndex.plainWrites
      rw [hf]
      rfl
    rw [tasks, List.mapM_cons, hp, hr']
    show some (List.flatten ([(f, a.2.2)] :: r')) = _
    rw [List.flatten_cons, he]
    rfl

/-- the files after extraction -/
structure Laid (names : V → List Text) (s : Sys) (idx : D) (d : Nat) (w : World V) (l : List (Item V)) (M : Dir → Text → List Code.Node) (E : Dir → Text → V8.Areas.Elems V)
    (w' : World V) : Prop where
  at_place : ∀ i ∈ l, ∃ c, V8.OrgIndex.Own names s M E i c ∧ w' (place s idx d i.1 i.2.1) = some c
  area : ∀ a ∈ codeAreas s M l, w' a.1 = some (txt s a.2.2)
  elemArea : ∀ a ∈ elemAreas names s E l, w' a.1 = some (.elems a.2)
  stands : Stands s d (own idx l) w'
  rest : ∀ f, ¬ s.src <+: f.1 → (∀ i ∈ l, f ≠ place s idx d i.1 i.2.1) → f ∉ (codeAreas s M l).map (·.1) → f ∉ (elemAreas names s E l).map (·.1) → w' f = w f

theorem good_file {names : V → List Text} {s : Sys} {idx : D} {l : List (Item V)} {M : Dir → Text → List Code.Node} {E : Dir → Text → V8.Areas.Elems V}
    (ok : IndexFit names s idx l M E) (i : Item V) (hi : i ∈ l) (he : isElem i.2.1 = false) (x : Put V) (hx : x.file = target s.src idx i.1 i.2.1 true) :
    Good s (own idx l) x := by
  cases h : entryOf idx i.1 i.2.1 with
  | none => exact .inl ⟨i, mem_own.mpr ⟨hi, h⟩, he, by rw [hx, target_own h]⟩
  | some e =>
    right
    rw [hx, target_moved h]
    exact ok.outside i hi e h

theorem good_plain {names : V → List Text} {s : Sys} {idx : D} {w : World V} {l : List (Item V)} {M : Dir → Text → List Code.Node} {E : Dir → Text → V8.Areas.Elems V}
    (rd : Ready names s w l M E) (hd : s.deep = true) (ok : IndexFit names s idx l M E) (plain : List (Put V))
    (h : (l.filter (fun i => !isCode i.2.1 && !isElem i.2.1)).mapM (plainPut s idx) = some plain) : ∀ x ∈ plain, Good s (own idx l) x := by
  intro x hx
  obtain ⟨i, hi, h1⟩ := (mapM_mem _ _ _ h).2 x hx
  rw [List.mem_filter, Bool.and_eq_true, Bool.not_eq_true', Bool.not_eq_true'] at hi
  unfold plainPut at h1
  rw [(placed rd hd ok).home i hi.1, Option.map_some] at h1
  cases h1
  exact good_file ok i hi.1 hi.2.2 _ rfl

theorem good_code {names : V → List Text} {s : Sys} {idx : D} {w : World V} {l : List (Item V)} {M : Dir → Text → List Code.Node} {E : Dir → Text → V8.Areas.Elems V}
    (rd : Ready names s w l M E) (hd : s.deep = true) (ok : IndexFit names s idx l M E) (out : AreasOutside s l M) (code : List (Put V))
    (hc : ((l.filter (fun i => isCode i.2.1)).mapM (codePuts s idx)).map List.flatten = some code) : ∀ x ∈ code, Good s (own idx l) x := by
  intro x hx
  have ht := code_tasks s idx _ code hc
  obtain ⟨i, hi, u, hu, hxu⟩ := (Org.tasks_mem _ _ _ ht).2 (asWrite x) (List.mem_map_of_mem hx)
  rw [List.mem_filter] at hi
  obtain ⟨m1, m2⟩ := rd.module i hi.1 hi.2
  obtain ⟨u', hu', hm⟩ := V8.OrgIndex.code_writes s idx i _ m1 m2 _ ((placed rd hd ok).home i hi.1)
  rw [hu] at hu'
  cases hu'
  have hne : isElem i.2.1 = false := by
    rcases Org.kind_cases i.2.1 with ⟨_, h⟩ | ⟨h, _⟩ | ⟨h, _⟩
    · exact h
    · rw [hi.2] at h; cases h
    · rw [hi.2] at h; cases h
  rcases (hm _).mp hxu with h | ⟨p, hp, ht, h⟩
  · refine good_file ok i hi.1 hne x ?_
    injection h
  · right
    have hf : x.file = parse s.env p.1 (s.src ++ i.1) := by injection h
    rw [hf]
    exact out (parse s.env p.1 (s.src ++ i.1), p.2.1, p.2.2.flatten) (List.mem_flatMap.mpr ⟨i, List.mem_filter.mpr hi, List.mem_map.mpr ⟨p, hp, rfl⟩⟩)

theorem laid {names : V → List Text} {s : Sys} {idx : D} {d : Nat} {w : World V} {l : List (Item V)} {M : Dir → Text → List Code.Node} {E : Dir → Text → V8.Areas.Elems V}
    (rd : Ready names s w l M E) (ok : IndexFit names s idx l M E) (fit : Fit s d (own idx l)) (out : AreasOutside s l M) {w' : World V}
    (h : Unpacked names s idx d w l w') : Laid names s idx d w l M E w' := by
  obtain ⟨plain, code, elem, code', elem', v0, h0, v, hh, hp, hc, he, pc, pe, hs0, hs, rfl⟩ := h
  have pl := placed rd fit.deep ok
  have hgp := good_plain rd fit.deep ok plain hp
  have hgood : ∀ x ∈ plain ++ code', Good s (own idx l) x := by
    intro x hx
    rcases List.mem_append.mp hx with hx | hx
    · exact hgp x hx
    · exact good_code rd fit.deep ok out code hc x (pc.mem_iff.mp hx)
  obtain ⟨hv0, hinv⟩ := Versions.saves_puts fit false _ _ _ _ _ hs0 (by
    intro u hu p m hm
    rw [List.mem_singleton] at hu
    subst hu
    exact absurd (if_pos (List.prefix_append _ _)) hm) hgp
  have hv : v = puts (clear s w) ((plain ++ code').map (kept s d)) := by
    have := (Versions.saves_puts fit true _ _ _ _ _ hs (by
      intro u hu
      rw [List.mem_singleton] at hu
      rw [hu]
      exact hinv) (fun x hx => hgood x (List.mem_append_right _ hx))).1
    rw [this, hv0, List.map_append]
    unfold puts
    rw [List.foldl_append]
  have helem : ∀ x ∈ elem', (∃ i ∈ own idx l, isElem i.2.1 = true ∧ x.1 = (s.src ++ i.1, i.2.1)) ∨ ¬ s.src <+: x.1.1 := by
    intro x hx
    obtain ⟨i, hi, u, hu, hxu⟩ := (Org.tasks_mem _ _ _ he).2 x (pe.mem_iff.mp hx)
    rw [List.mem_filter] at hi
    obtain ⟨m1, m2⟩ := rd.form i hi.1 hi.2
    obtain ⟨tree, data, _, hm⟩ := V8.OrgIndex.elem_writes names s idx i _ m1 hi.2 m2 _ (pl.home i hi.1) u hu
    rcases (hm x).mp hxu with rfl | ⟨a, ha, rfl⟩
    · cases hen : entryOf idx i.1 i.2.1 with
      | none => exact .inl ⟨i, mem_own.mpr ⟨hi.1, hen⟩, hi.2, target_own hen⟩
      | some e =>
        right
        show ¬ s.src <+: (target s.src idx i.1 i.2.1 true).1
        rw [target_moved hen]
        exact Versions.outside_prefix s _ (ok.outside i hi.1 e hen)
    · exact .inr (rd.outsideElems (Org.elemFile s a.1 (s.src ++ i.1), a.2) (List.mem_flatMap.mpr ⟨i, List.mem_filter.mpr hi, List.mem_map.mpr ⟨a, ha, rfl⟩⟩))
  have horg : V8.OrgIndex.Unpacked names s idx w l (puts (clear s w) (plain.map asWrite ++ code'.map asWrite ++ elem')) :=
    ⟨plain.map asWrite, code.map asWrite, elem, _, elem', plain_tasks s idx _ _ hp, code_tasks s idx _ _ hc, he, pc.map _, pe, rfl⟩
  have hl := V8.OrgIndex.laid_at rd pl horg
  have hw' : puts v elem' = puts (clear s w) ((plain.map asWrite ++ code'.map asWrite ++ elem').map (fun x => (Versions.home s d x.1, x.2))) := by
    rw [← List.map_append, List.map_append, List.map_map]
    have h1 : (plain ++ code').map ((fun x : Write V => (Versions.home s d x.1, x.2)) ∘ asWrite) = (plain ++ code').map (kept s d) :=
      List.map_congr_left (fun x hx => (Versions.kept_home s d _ x (hgood x hx)).symm)
    have h2 : elem'.map (fun x : Write V => (Versions.home s d x.1, x.2)) = elem' := by
      conv => rhs; rw [← List.map_id elem']
      refine List.map_congr_left (fun x hx => ?_)
      show (Versions.home s d x.1, x.2) = x
      have : Versions.home s d x.1 = x.1 := by
        unfold Versions.home
        rw [if_neg]
        rintro ⟨g1, g2⟩
        rcases helem x hx with ⟨i, _, k, hx'⟩ | hn
        · rw [hx', k] at g2
          cases g2
        · exact hn g1
      rw [this]
    rw [h1, h2]
    unfold puts
    rw [List.foldl_append]
    have hv' : v = List.foldl put (clear s w) ((plain ++ code').map (kept s d)) := hv
    rw [← hv']
  have hdom : ∀ x ∈ plain.map asWrite ++ code'.map asWrite ++ elem', (∃ i ∈ own idx l, x.1 = (s.src ++ i.1, i.2.1)) ∨ ¬ s.src <+: x.1.1 := by
    intro x hx
    rcases List.mem_append.mp hx with hx | hx
    · rw [← List.map_append] at hx
      obtain ⟨y, hy, rfl⟩ := List.mem_map.mp hx
      rcases hgood y hy with ⟨i, hi, _, h⟩ | h
      · exact .inl ⟨i, hi, h⟩
      · exact .inr (Versions.outside_prefix s _ h)
    · rcases helem x hx with ⟨i, hi, _, h⟩ | h
      · exact .inl ⟨i, hi, h⟩
      · exact .inr h
  generalize hL : plain.map asWrite ++ code'.map asWrite ++ elem' = L at *
  have home_item : ∀ i : Item V, Versions.home s d (s.src ++ i.1, i.2.1) = (s.src ++ i.1, stored d i.2.1) := by
    intro i
    unfold Versions.home stored
    cases h : isElem i.2.1 with
    | true => rw [if_neg (fun hh => by cases hh.2)]; rfl
    | false => rw [if_pos ⟨List.prefix_append _ _, rfl⟩]; rfl
  have home_out : ∀ f : Org.File, ¬ s.src <+: f.1 → Versions.home s d f = f := fun f hf => if_neg (fun h => hf h.1)
  have hitem : ∀ i ∈ own idx l, puts v elem' (s.src ++ i.1, stored d i.2.1) = puts (clear s w) L (s.src ++ i.1, i.2.1) := by
    intro i hi
    rw [hw', ← home_item i]
    refine Versions.puts_map (Versions.home s d) (s.src ++ i.1, i.2.1) _ _ _ ?_ ?_
    · intro x hx hxe
      rw [home_item i] at hxe
      rcases hdom x hx with ⟨j, hj, hxj⟩ | hn
      · rw [hxj, home_item j] at hxe
        obtain ⟨g1, g2⟩ := Org.file_inj hxe
        have := Versions.stored_inj fit hj hi g1 g2
        rw [hxj, g1, this]
      · rw [home_out _ hn] at hxe
        rw [hxe] at hn
        exact absurd (List.prefix_append _ _) hn
    · rw [home_item i]
      show (if s.src <+: s.src ++ i.1 then none else w _) = (if s.src <+: s.src ++ i.1 then none else w _)
      rw [if_pos (List.prefix_append _ _), if_pos (List.prefix_append _ _)]
  have hout : ∀ f : Org.File, ¬ s.src <+: f.1 → puts v elem' f = puts (clear s w) L f := by
    intro f hf
    have key := Versions.puts_map (Versions.home s d) f L (clear s w) (clear s w) (by
      intro x hx hxe
      rw [home_out f hf] at hxe
      rcases hdom x hx with ⟨j, hj, hxj⟩ | hn
      · rw [hxj, home_item j] at hxe
        rw [← hxe] at hf
        exact absurd (List.prefix_append _ _) hf
      · rw [home_out _ hn] at hxe
        exact hxe) (by rw [home_out f hf])
    rw [home_out f hf] at key
    rw [hw', key]
  have hown : ∀ i ∈ l, ∃ c, V8.OrgIndex.Own names s M E i c ∧ puts v elem' (place s idx d i.1 i.2.1) = some c := by
    intro i hi
    obtain ⟨c, ho, hc⟩ := hl.own i hi
    refine ⟨c, ho, ?_⟩
    unfold place
    cases hen : entryOf idx i.1 i.2.1 with
    | none =>
      simp only
      rw [hitem i (mem_own.mpr ⟨hi, hen⟩), ← hc, target_own hen]
    | some e =>
      simp only
      rw [hout _ (Versions.outside_prefix s _ (ok.outside i hi e hen)), ← hc, target_moved hen]
  refine ⟨hown, ?_, ?_, ⟨?_, ?_⟩, ?_⟩
  · intro a ha
    rw [hout _ (rd.outside a ha)]
    exact hl.area a ha
  · intro a ha
    rw [hout _ (rd.outsideElems a ha)]
    exact hl.elemArea a ha
  · intro i hi
    obtain ⟨c, _, hc⟩ := hown i (mem_own.mp hi).1
    unfold place at hc
    rw [(mem_own.mp hi).2] at hc
    rw [hc]
    exact Option.some_ne_none _
  · intro p m hm
    apply Classical.byContradiction
    intro hno
    apply hm
    rw [hw', Org.puts_none _ _ _ ?_]
    · exact if_pos (List.prefix_append _ _)
    · intro y hy he
      obtain ⟨x, hx, rfl⟩ := List.mem_map.mp hy
      simp only at he
      rcases hdom x hx with ⟨j, hj, hxj⟩ | hn
      · rw [hxj, home_item j] at he
        obtain ⟨g1, g2⟩ := Org.file_inj he
        exact hno ⟨j, hj, g1, g2.symm⟩
      · rw [home_out _ hn] at he
        rw [he] at hn
        exact hn (List.prefix_append _ _)
  · intro f hf h0 h1 h2
    rw [hout f hf]
    refine hl.rest f hf ?_ h1 h2
    intro i hi hfe
    cases hen : entryOf idx i.1 i.2.1 with
    | none =>
      rw [target_own hen] at hfe
      rw [hfe] at hf
      exact hf (List.prefix_append _ _)
    | some e =>
      refine h0 i hi ?_
      unfold place
      rw [hfe, hen, target_moved hen]

end V8.VersIndex
