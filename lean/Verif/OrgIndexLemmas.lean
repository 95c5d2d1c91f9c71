import Verif.OrgIndex
import Verif.PathLemmas
import Verif.Props.Index
/-
C74: paths of index entries, and what the walk through an index collects.
-/
namespace V8.OrgIndex
open V8.Str V8.Code V8.Org V8.Json V8.Index

/-! ### specification -/

/-- an index entry that names a file: a relative path without empty parts, the last part a name -/
def CleanEntry (e : Text) : Prop := (∀ d ∈ split '/' e, d ≠ []) ∧ V8.Path.Plain (basename e)

/-- the file an entry names, seen from the folder around the source folder -/
def named (src : Dir) (e : Text) : Org.File := ((split '/' e).dropLast.foldl V8.Path.step src.dropLast, basename e)

/-- the folder whose parent the entries are seen from: with a version it lies one level higher -/
def base (deep : Bool) (src : Dir) : Dir := match deep with
  | true => src.dropLast
  | false => src

/-- where a file of the product belongs: the file its index entry names, or its own place in the source folder -/
def target (src : Dir) (idx : D) (p : Dir) (n : Text) (deep : Bool := false) : Org.File := match (J.obj idx).at (p ++ [n]) with
  | some (.str e) => if e = [] then (src ++ p, n) else named (base deep src) e
  | _ => (src ++ p, n)

mutual
/-- an index without `*` entries whose entries are texts, folders, or empty -/
def TidyV : J → Prop
  | .obj d => Tidy d
  | .scalar s => truthy (.scalar s) = false
  | .arr l => l = []
  | _ => True
/-- an index without `*` entries whose entries are texts, folders, or empty -/
def Tidy : D → Prop
  | .nil => True
  | .cons k v r => (k = areasKey ∨ starts ['*'] k = false ∧ TidyV v) ∧ Tidy r
end

/-! ### paths -/

theorem pjoin_eq (a b : Text) : pjoin a b = V8.Path.join a b := by
  have h1 : starts ['/'] b = true ↔ b.head? = some '/' := by
    rw [starts]
    cases b with
    | nil => simp
    | cons c t =>
      rw [List.isPrefixOf_iff_prefix, List.prefix_cons_iff]
      constructor
      · rintro (h | ⟨x, h, _⟩)
        · cases h
        · injection h with h _
          rw [← h]; rfl
      · intro h
        have hc : c = '/' := Option.some.inj h
        subst hc
        exact .inr ⟨[], rfl, List.nil_prefix⟩
  have h2 : ends ['/'] a = true ↔ a.getLast? = some '/' := by
    rw [ends, List.isSuffixOf_iff_suffix, List.getLast?_eq_some_iff]
    constructor
    · rintro ⟨t, rfl⟩; exact ⟨t, rfl⟩
    · rintro ⟨t, rfl⟩; exact ⟨t, rfl⟩
  unfold pjoin V8.Path.join
  by_cases hb : b.head? = some '/'
  · rw [if_pos (h1.mpr hb), if_pos hb]
  · rw [if_neg (fun h => hb (h1.mp h)), if_neg hb]
    by_cases ha : a = [] ∨ a.getLast? = some '/'
    · rw [if_pos (ha.imp id h2.mpr), if_pos ha]
    · rw [if_neg (fun h => ha (h.imp id h2.mp)), if_neg ha]

theorem clean_of {e : Text} (h : CleanEntry e) : CleanPath e (split '/' e).dropLast (basename e) := by
  have hne : split '/' e ≠ [] := by
    intro h0
    have := join_split '/' e
    rw [h0] at this
    have he : e = [] := this.symm
    subst he
    cases h0
  have hl : (split '/' e).dropLast ++ [basename e] = split '/' e := by
    unfold basename
    rw [List.getLast?_eq_some_getLast hne, Option.getD_some]
    exact List.dropLast_concat_getLast hne
  refine ⟨by rw [hl, join_split], ?_⟩
  rw [hl]
  exact fun d hd => ⟨h.1 d hd, split_mem '/' e d hd⟩

/-- the way up from the source folder -/
def ups (deep : Bool) : List Text := if deep then ["..".toList, "..".toList] else ["..".toList]

theorem up_eq (deep : Bool) (q : Text) (hq : q.head? ≠ some '/') : upFrom deep q = join '/' (ups deep) ++ '/' :: q := by
  cases deep with
  | true =>
    have h1 : pjoin ['.', '.'] (if true = true then ['.', '.'] else []) = "../..".toList := by decide
    unfold upFrom
    rw [h1, pjoin_eq, V8.Path.join, if_neg hq, if_neg (by decide)]
    rfl
  | false =>
    have h1 : pjoin ['.', '.'] (if false = true then ['.', '.'] else []) = "../".toList := by decide
    unfold upFrom
    rw [h1, pjoin_eq, V8.Path.join, if_neg hq, if_pos (.inr (by decide))]
    rfl

theorem up_head (deep : Bool) (q : Text) : (join '/' (ups deep) ++ '/' :: q).head? ≠ some '/' := by
  cases deep <;> rintro ⟨⟩

theorem ups_step (deep : Bool) (src : Dir) : (ups deep).foldl V8.Path.step src = (base deep src).dropLast := by
  cases deep <;> rfl

theorem head_join (l : List Text) (h : ∀ d ∈ l, d ≠ [] ∧ '/' ∉ d) : (join '/' l).head? ≠ some '/' := by
  cases l with
  | nil => intro h; cases h
  | cons a r =>
    have ha := h a List.mem_cons_self
    intro hh
    cases a with
    | nil => exact ha.1 rfl
    | cons c t =>
      have hc : c = '/' := by
        cases r with
        | nil => rw [join] at hh; exact Option.some.inj hh
        | cons b r => rw [join] at hh; exact Option.some.inj hh
      exact ha.2 (hc ▸ List.mem_cons_self)

theorem split_join_any (l : List Text) (h : ∀ d ∈ l, d ≠ [] ∧ '/' ∉ d) (X : Dir) : (split '/' (join '/' l)).foldl V8.Path.step X = l.foldl V8.Path.step X := by
  cases l with
  | nil => show V8.Path.step X [] = X; rw [V8.Path.step, if_neg (by decide), if_pos (.inr rfl)]
  | cons a r => rw [split_join '/' _ (by simp) (fun p hp => (h p hp).2)]

theorem split_up (deep : Bool) (q : Text) : split '/' (join '/' (ups deep) ++ '/' :: q) = ups deep ++ split '/' q := by
  rw [V8.Path.split_at]
  cases deep <;> rfl

/-- the place of an entry that is looked up from the source folder -/
theorem place_up (deep : Bool) (src : Dir) (hs : ∀ c ∈ src, V8.Path.Plain c) (ds : List Text) (h : ∀ d ∈ ds, d ≠ [] ∧ '/' ∉ d) :
    V8.Path.place (pjoin (V8.Path.pathOf src) (upFrom deep (join '/' ds))) = ds.foldl V8.Path.step (base deep src).dropLast := by
  rw [up_eq deep _ (head_join ds h), pjoin_eq, V8.Path.place_join, if_neg (up_head deep _), split_up, List.foldl_append, V8.Path.place_pathOf src hs,
    split_join_any ds h, ups_step]

/-- the file of an entry, for a module or elements -/
theorem queued_file (deep : Bool) (src : Dir) (hs : ∀ c ∈ src, V8.Path.Plain c) (e : Text) (h : CleanEntry e) :
    (V8.Path.place (pjoin (V8.Path.pathOf src) (upFrom deep (dirname e))), basename e) = named (base deep src) e := by
  have hc := clean_of h
  rw [dirname_clean _ _ _ hc, place_up deep src hs _ (fun d hd => hc.2 d (List.mem_append_left _ hd))]
  rfl

theorem pathOf_last (src : Dir) (hs : ∀ c ∈ src, V8.Path.Plain c) : (V8.Path.pathOf src).getLast? ≠ some '/' := by
  intro h
  by_cases hn : src = []
  · subst hn; cases h
  obtain ⟨i, c, rfl⟩ : ∃ i c, src = i ++ [c] := ⟨src.dropLast, src.getLast hn, (List.dropLast_concat_getLast hn).symm⟩
  have hc := hs c (by simp)
  have : V8.Path.pathOf (i ++ [c]) = (V8.Path.pathOf i ++ ['/']) ++ c := by simp [V8.Path.pathOf]
  rw [this, List.getLast?_append_of_ne_nil _ hc.2.1] at h
  exact hc.1 (List.mem_of_getLast? h)

/-- the file of an entry, for a file that is copied -/
theorem copied_file (deep : Bool) (src : Dir) (hne : src ≠ []) (hs : ∀ c ∈ src, V8.Path.Plain c) (e : Text) (h : CleanEntry e) :
    (V8.Path.place (dirname (pjoin (V8.Path.pathOf src) (upFrom deep e))), basename (pjoin (V8.Path.pathOf src) (upFrom deep e))) = named (base deep src) e := by
  have hc := clean_of h
  have hhead : e.head? ≠ some '/' := by rw [hc.1]; exact head_join _ hc.2
  have hp : V8.Path.pathOf src ≠ [] := by
    intro h0
    have := V8.Path.pathOf_head src hne
    rw [h0] at this
    cases this
  have hfull : pjoin (V8.Path.pathOf src) (upFrom deep e) = V8.Path.pathOf src ++ '/' :: (join '/' (ups deep) ++ '/' :: e) := by
    rw [up_eq deep e hhead, pjoin_eq, V8.Path.join, if_neg (up_head deep _), if_neg]
    rintro (h0 | h0)
    · exact hp h0
    · exact pathOf_last src hs h0
  have hsplit : split '/' (pjoin (V8.Path.pathOf src) (upFrom deep e)) = [] :: (src ++ ups deep ++ split '/' e) := by
    rw [hfull, V8.Path.split_at, split_up, V8.Path.split_pathOf src (fun c hc => (hs c hc).1)]
    rw [List.append_assoc]
    rfl
  have hee : split '/' e = (split '/' e).dropLast ++ [basename e] := by
    rw [split_clean_path e _ _ hc, List.dropLast_concat]
  have hdrop : (split '/' (pjoin (V8.Path.pathOf src) (upFrom deep e))).dropLast = [] :: (src ++ ups deep ++ (split '/' e).dropLast) := by
    rw [hsplit, hee, List.dropLast_concat]
    have : [] :: (src ++ ups deep ++ ((split '/' e).dropLast ++ [basename e])) = ([] :: (src ++ ups deep ++ (split '/' e).dropLast)) ++ [basename e] := by simp
    rw [this, List.dropLast_concat]
  have hb : basename (pjoin (V8.Path.pathOf src) (upFrom deep e)) = basename e := by
    rw [basename, hsplit, hee]
    have : [] :: (src ++ ups deep ++ ((split '/' e).dropLast ++ [basename e])) = ([] :: (src ++ ups deep ++ (split '/' e).dropLast)) ++ [basename e] := by simp
    rw [this, List.getLast?_concat]
    rfl
  have hclean : ∀ d ∈ src ++ ups deep ++ (split '/' e).dropLast, d ≠ [] ∧ '/' ∉ d := by
    intro d hd
    rcases List.mem_append.mp hd with hd | hd
    · rcases List.mem_append.mp hd with hd | hd
      · exact ⟨(hs d hd).2.1, (hs d hd).1⟩
      · have : d = "..".toList := by cases deep <;> simpa [ups] using hd
        subst this
        decide
    · exact hc.2 d (List.mem_append_left _ hd)
  have hd : dirname (pjoin (V8.Path.pathOf src) (upFrom deep e)) = join '/' ([] :: (src ++ ups deep ++ (split '/' e).dropLast)) := by
    unfold dirname
    rw [hdrop, if_neg]
    · obtain ⟨t, c, h1, h2⟩ := join_last_slash _ (by cases deep <;> simp [ups]) hclean
      have hj : join '/' ([] :: (src ++ ups deep ++ (split '/' e).dropLast)) = '/' :: (t ++ [c]) := by
        rw [← h1]
        cases hl : src ++ ups deep ++ (split '/' e).dropLast with
        | nil => cases deep <;> simp [ups] at hl
        | cons x r => rfl
      rw [hj]
      have : ('/' :: (t ++ [c])).reverse = c :: ('/' :: t).reverse := by simp
      rw [this, List.dropWhile_cons_of_neg (by simpa using h2)]
      simp
    · intro h0
      have := List.all_eq_true.mp h0 "..".toList (by cases deep <;> simp [ups])
      exact absurd this (by decide)
  rw [hb, hd]
  refine Prod.ext ?_ rfl
  show V8.Path.place _ = (split '/' e).dropLast.foldl V8.Path.step (base deep src).dropLast
  unfold V8.Path.place
  rw [split_join '/' _ (by simp) (fun p hp => by
    rcases List.mem_cons.mp hp with rfl | hp
    · exact List.not_mem_nil
    · exact (hclean p hp).2), List.foldl_cons, List.foldl_append, List.foldl_append]
  have : V8.Path.step [] [] = [] := by decide
  rw [this, V8.Path.foldl_plain [] src hs, ups_step]
  rfl

theorem entryFile_at (deep : Bool) (src : Dir) (hne : src ≠ []) (hs : ∀ c ∈ src, V8.Path.Plain c) (entry e : Text) (h : CleanEntry e) :
    entryFile src entry e deep = named (base deep src) e := by
  unfold entryFile
  by_cases hq : isQueued entry = true
  · rw [if_pos hq]; exact queued_file deep src hs e h
  · rw [if_neg hq]; exact copied_file deep src hne hs e h

theorem entryFile_eq (src : Dir) (hne : src ≠ []) (hs : ∀ c ∈ src, V8.Path.Plain c) (entry e : Text) (h : CleanEntry e) : entryFile src entry e = named src e :=
  entryFile_at false src hne hs entry e h

/-! ### the home of a file -/

theorem folders_join (p : Dir) (h : ∀ c ∈ p, V8.Path.Plain c) : folders (join '/' p) = p := by
  unfold folders
  cases p with
  | nil => rfl
  | cons a r =>
    rw [if_neg, split_join '/' _ (by simp) (fun c hc => (h c hc).1)]
    obtain ⟨t, c, h1, _⟩ := join_last_slash (a :: r) (by simp) (fun d hd => ⟨(h d hd).2.1, (h d hd).1⟩)
    rw [h1]
    simp

theorem place_own (src : Dir) (hs : ∀ c ∈ src, V8.Path.Plain c) (p : Dir) (h : ∀ c ∈ p, V8.Path.Plain c) :
    V8.Path.place (pjoin (V8.Path.pathOf src) (join '/' p)) = src ++ p := by
  have hc : ∀ d ∈ p, d ≠ [] ∧ '/' ∉ d := fun d hd => ⟨(h d hd).2.1, (h d hd).1⟩
  rw [pjoin_eq, V8.Path.place_join, if_neg (head_join p hc), V8.Path.place_pathOf src hs, split_join_any p hc, V8.Path.foldl_plain src p h]

/-- extraction puts a file where it belongs -/
theorem home_at (deep : Bool) (src : Dir) (idx : D) (hs : ∀ c ∈ src, V8.Path.Plain c) (p : Dir) (hp : ∀ c ∈ p, V8.Path.Plain c) (n : Text)
    (hclean : ∀ e, (J.obj idx).at (p ++ [n]) = some (.str e) → e ≠ [] → CleanEntry e)
    (hfile : ∀ v, (J.obj idx).at (p ++ [n]) = some v → v = .null ∨ ∃ e, v = .str e)
    (hwild : (J.obj idx).at (p ++ [['*']]) = none)
    (hway : ∀ q, q <+: p → (J.obj idx).at q = none ∨ ∃ d, (J.obj idx).at q = some (.obj d)) :
    home src idx p n deep = some (target src idx p n deep) := by
  unfold home target
  have hf := folders_join p hp
  cases ha : (J.obj idx).at (p ++ [n]) with
  | none =>
    rw [C23_unindexed_stays idx (join '/' p) n deep (by rw [hf]; exact ha) (by rw [hf]; exact hwild) (by rw [hf]; exact hway), Option.map_some,
      place_own src hs p hp]
  | some v =>
    have hnull : ∀ v, (v = .null ∨ v = .str []) → (J.obj idx).at (p ++ [n]) = some v → getDestPath (some idx) (join '/' p) n deep = some (join '/' p, n) := by
      intro v hv ha
      obtain ⟨d, h1, h2⟩ := (at_last _ _ _ _).mp ha
      have hw := (walk_at p (.obj idx) (.obj d)).mpr h1
      have hg : getFromIndex idx (join '/' p) n = .value v := by
        unfold getFromIndex
        rw [show (if join '/' p = [] then [] else split '/' (join '/' p)) = p from hf, hw]
        simp only [h2]
      have hnn := index_ne_nil ha
      unfold getDestPath
      cases idx with
      | nil => exact absurd rfl hnn
      | cons k x r =>
        simp only [hg]
        rcases hv with rfl | rfl
        · rfl
        · simp
    rcases hfile v ha with rfl | ⟨e, rfl⟩
    · rw [hnull _ (.inl rfl) ha, Option.map_some, place_own src hs p hp]
    · by_cases he : e = []
      · subst he
        rw [hnull _ (.inr rfl) ha, Option.map_some, place_own src hs p hp]
        simp
      · rw [C23_exact_entry idx (join '/' p) n e deep he (by rw [hf]; exact ha), Option.map_some]
        simp only [if_neg he]
        exact congrArg some (queued_file deep src hs e (hclean e ha he))

/-- extraction puts a file where it belongs -/
theorem home_eq (src : Dir) (idx : D) (hs : ∀ c ∈ src, V8.Path.Plain c) (p : Dir) (hp : ∀ c ∈ p, V8.Path.Plain c) (n : Text)
    (hclean : ∀ e, (J.obj idx).at (p ++ [n]) = some (.str e) → e ≠ [] → CleanEntry e)
    (hfile : ∀ v, (J.obj idx).at (p ++ [n]) = some v → v = .null ∨ ∃ e, v = .str e)
    (hwild : (J.obj idx).at (p ++ [['*']]) = none)
    (hway : ∀ q, q <+: p → (J.obj idx).at q = none ∨ ∃ d, (J.obj idx).at q = some (.obj d)) :
    home src idx p n = some (target src idx p n) := home_at false src idx hs p hp n hclean hfile hwild hway

/-! ### the entries of an index -/

mutual
/-- the files a value of an index names -/
def entriesV : J → List (List Text × Text)
  | .str e => if e = [] then [] else [([], e)]
  | .obj d => entriesOf d
  | _ => []
/-- the files an index names, with their paths in the product -/
def entriesOf : D → List (List Text × Text)
  | .nil => []
  | .cons k v r => (if k = areasKey then [] else (entriesV v).map (fun x => (k :: x.1, x.2))) ++ entriesOf r
end

/-- the operation for an entry -/
def opOf (path : List Text) (x : List Text × Text) : Op := ⟨(path ++ x.1.dropLast, x.1.getLast?.getD []), x.2, isQueued (x.1.getLast?.getD [])⟩

theorem entries_ne : ∀ (d : D), ∀ x ∈ entriesOf d, x.1 ≠ []
  | .nil, x, hx => by rw [entriesOf] at hx; cases hx
  | .cons k v r, x, hx => by
    rw [entriesOf] at hx
    rcases List.mem_append.mp hx with hx | hx
    · by_cases hk : k = areasKey
      · rw [if_pos hk] at hx; cases hx
      rw [if_neg hk, List.mem_map] at hx
      obtain ⟨y, _, rfl⟩ := hx
      exact List.cons_ne_nil _ _
    · exact entries_ne r x hx

theorem opOf_cons (path : List Text) (k : Text) (x : List Text × Text) (hx : x.1 ≠ []) : opOf path (k :: x.1, x.2) = opOf (path ++ [k]) x := by
  obtain ⟨q, e⟩ := x
  cases q with
  | nil => exact absurd rfl hx
  | cons a r => simp [opOf, List.dropLast, List.getLast?_cons_cons]

/-- what the walk through a tidy index collects -/
theorem packIndex_tidy (cwd : Text → Option (List (Text × Bool))) (d : D) (path done : List Text) (h : Tidy d) :
    packIndex ⟨cwd, some⟩ path d done = some ((entriesOf d).map (opOf path)) := by
  match d with
  | .nil => rw [packIndex, entriesOf]; rfl
  | .cons k v r =>
    rw [Tidy] at h
    rw [packIndex_step, entriesOf, List.map_append]
    by_cases hk : k = areasKey
    · rw [if_pos (by simp [hk]), packIndex_tidy cwd r path done h.2, if_pos hk]
      rfl
    rw [if_neg hk]
    obtain ⟨hst, hv⟩ := h.1.resolve_left hk
    cases v with
    | null =>
      rw [if_pos (by simp [truthy]), packIndex_tidy cwd r path done h.2, entriesV]; rfl
      all_goals (intro _ h0; cases h0)
    | scalar x =>
      rw [TidyV] at hv
      rw [if_pos (by rw [hv]; simp), packIndex_tidy cwd r path done h.2, entriesV]; rfl
      all_goals (intro _ h0; cases h0)
    | arr x =>
      rw [TidyV] at hv
      rw [if_pos (by simp [truthy, hv]), packIndex_tidy cwd r path done h.2, entriesV]; rfl
      all_goals (intro _ h0; cases h0)
    | str e =>
      rw [entriesV]
      by_cases he : e = []
      · rw [if_pos (by simp [truthy, he]), packIndex_tidy cwd r path done h.2, if_pos he]
        rfl
      · rw [if_neg (by simp [truthy, he, hk]), if_neg (by rw [hst]; simp), if_neg he]
        simp only [packElem, Option.map_some, Option.bind_some, packIndex_tidy cwd r path (done ++ [k]) h.2]
        simp [opOf]
    | obj d' =>
      rw [TidyV] at hv
      rw [entriesV]
      cases d' with
      | nil =>
        rw [if_pos (by simp [truthy]), packIndex_tidy cwd r path done h.2]
        simp [entriesOf]
      | cons a b c =>
        rw [if_neg (by simp [truthy, hk]), if_neg (by rw [hst]; simp)]
        simp only
        rw [packIndex_tidy cwd (.cons a b c) (path ++ [k]) [] hv, Option.bind_some, packIndex_tidy cwd r path done h.2, Option.map_some, List.map_map]
        congr 2
        refine List.map_congr_left (fun x hx => ?_)
        exact (opOf_cons path k x (entries_ne _ x hx)).symm
termination_by sizeOf d

/-- the entries of an index are the texts found in it outside of the table of areas -/
theorem mem_entries (d : D) (hw : d.WF) (q : List Text) (e : Text) :
    (q, e) ∈ entriesOf d ↔ q ≠ [] ∧ areasKey ∉ q ∧ e ≠ [] ∧ (J.obj d).at q = some (.str e) := by
  match d with
  | .nil =>
    rw [entriesOf]
    constructor
    · intro h; cases h
    · rintro ⟨h1, _, _, h4⟩
      cases q with
      | nil => exact absurd rfl h1
      | cons k r => rw [at_obj] at h4; cases h4
  | .cons k v r =>
    rw [D.WF] at hw
    obtain ⟨w1, w2, w3⟩ := hw
    have ih := mem_entries r w3 q e
    rw [entriesOf, List.mem_append, ih]
    constructor
    · rintro (h | ⟨h1, h2, h3, h4⟩)
      · by_cases hk : k = areasKey
        · rw [if_pos hk] at h; cases h
        rw [if_neg hk, List.mem_map] at h
        obtain ⟨⟨y, z⟩, hy, he⟩ := h
        injection he with e1 e2
        simp only at e1 e2
        subst e1; subst e2
        have hcons : areasKey ∉ y → areasKey ∉ k :: y := by
          intro a2 hm
          rcases List.mem_cons.mp hm with hm | hm
          · exact hk hm.symm
          · exact a2 hm
        cases v with
        | str x =>
          rw [entriesV] at hy
          by_cases hx : x = []
          · rw [if_pos hx] at hy; cases hy
          rw [if_neg hx, List.mem_singleton] at hy
          injection hy with e1 e2
          subst e1; subst e2
          refine ⟨List.cons_ne_nil _ _, hcons List.not_mem_nil, hx, ?_⟩
          rw [at_obj, D.get, if_pos rfl, Option.bind_some, at_nil]
        | obj d' =>
          rw [entriesV] at hy
          rw [J.WF] at w2
          obtain ⟨a1, a2, a3, a4⟩ := (mem_entries d' w2 y z).mp hy
          refine ⟨List.cons_ne_nil _ _, hcons a2, a3, ?_⟩
          rw [at_obj, D.get, if_pos rfl, Option.bind_some]; exact a4
        | null => simp [entriesV] at hy
        | scalar _ => simp [entriesV] at hy
        | arr _ => simp [entriesV] at hy
      · refine ⟨h1, h2, h3, ?_⟩
        cases q with
        | nil => exact absurd rfl h1
        | cons a b =>
          rw [at_obj] at h4 ⊢
          have : k ≠ a := by
            rintro rfl
            rw [(D.get_none r k).mpr w1] at h4
            cases h4
          rw [D.get, if_neg this]
          exact h4
    · rintro ⟨h1, h2, h3, h4⟩
      cases q with
      | nil => exact absurd rfl h1
      | cons a b =>
        rw [at_obj, D.get] at h4
        by_cases hk : k = a
        · left
          subst hk
          rw [if_neg (fun hh : k = areasKey => h2 (hh ▸ List.mem_cons_self)), List.mem_map]
          rw [if_pos rfl, Option.bind_some] at h4
          cases b with
          | nil =>
            rw [at_nil] at h4
            cases h4
            rw [entriesV, if_neg h3]
            exact ⟨_, List.mem_singleton.mpr rfl, rfl⟩
          | cons c t =>
            cases v with
            | obj d' =>
              rw [J.WF] at w2
              rw [entriesV]
              exact ⟨(c :: t, e), (mem_entries d' w2 _ e).mpr ⟨by simp, fun hm => h2 (List.mem_cons_of_mem _ hm), h3, h4⟩, rfl⟩
            | null => rw [at_leaf _ (by rintro _ ⟨⟩)] at h4; cases h4
            | str _ => rw [at_leaf _ (by rintro _ ⟨⟩)] at h4; cases h4
            | scalar _ => rw [at_leaf _ (by rintro _ ⟨⟩)] at h4; cases h4
            | arr _ => rw [at_leaf _ (by rintro _ ⟨⟩)] at h4; cases h4
        · right
          rw [if_neg hk] at h4
          exact ⟨by simp, h2, h3, by rw [at_obj]; exact h4⟩
termination_by sizeOf d

end V8.OrgIndex
