import Verif.Props.OrgIndex
/-
C77: an index with `*` entries - where the files go, and what the walk through the index collects.
-/
namespace V8.OrgIndex
open V8.Str V8.Code V8.Org V8.Json V8.Index

/-! ### specification -/

/-- a `*` entry that names a folder: a relative path without empty parts -/
def CleanFolder (f : Text) : Prop := ∀ d ∈ split '/' f, d ≠ []

/-- the folder a `*` entry names, seen from the folder around the source folder -/
def starFolder (src : Dir) (f : Text) : Dir := (split '/' f).foldl V8.Path.step src.dropLast

/-- where a file of the product belongs: the file its index entry names; without an entry of its own the file of its name in the folder of the `*` entry;
or its own place in the source folder -/
def starTarget (src : Dir) (idx : D) (p : Dir) (n : Text) : Org.File := match (J.obj idx).at (p ++ [n]) with
  | some (.str e) => if e = [] then (src ++ p, n) else named src e
  | some _ => (src ++ p, n)
  | none => match (J.obj idx).at (p ++ [['*']]) with
    | some (.str f) => (starFolder src f, n)
    | _ => (src ++ p, n)

mutual
/-- an index whose entries are texts, folders, or empty, and whose only keys with `*` are `*` itself -/
def TidyStarV : J → Prop
  | .obj d => TidyStar d
  | .scalar s => truthy (.scalar s) = false
  | .arr l => l = []
  | _ => True
/-- an index whose entries are texts, folders, or empty, and whose only keys with `*` are `*` itself -/
def TidyStar : D → Prop
  | .nil => True
  | .cons k v r => (k = areasKey ∨ (starts ['*'] k = false ∧ TidyStarV v) ∨ (k = ['*'] ∧ ∃ f, v = .str f ∧ f ≠ [])) ∧ TidyStar r
end

/-! ### paths -/

theorem folder_join {f n : Text} (h : CleanFolder f) (hn : '/' ∉ n) : pjoin f n = f ++ '/' :: n := by
  have h1 : n.head? ≠ some '/' := fun hh => hn (List.mem_of_head? hh)
  rw [pjoin_eq, V8.Path.join, if_neg h1, if_neg]
  rintro (rfl | h0)
  · exact h [] List.mem_cons_self rfl
  · obtain ⟨t, rfl⟩ := List.getLast?_eq_some_iff.mp h0
    refine h [] ?_ rfl
    rw [show t ++ ['/'] = t ++ '/' :: [] from rfl, V8.Path.split_at]
    exact List.mem_append_right _ List.mem_cons_self

theorem folder_split {f n : Text} (h : CleanFolder f) (hn : '/' ∉ n) : split '/' (pjoin f n) = split '/' f ++ [n] := by
  rw [folder_join h hn, V8.Path.split_at, Org.split_none _ _ hn]

theorem folder_entry {f n : Text} (h : CleanFolder f) (hn : V8.Path.Plain n) : CleanEntry (pjoin f n) := by
  constructor
  · rw [folder_split h hn.1]
    intro d hd
    rcases List.mem_append.mp hd with hd | hd
    · exact h d hd
    · rw [List.mem_singleton.mp hd]; exact hn.2.1
  · rw [basename, folder_split h hn.1, List.getLast?_concat]
    exact hn

theorem folder_named (src : Dir) {f n : Text} (h : CleanFolder f) (hn : V8.Path.Plain n) : named src (pjoin f n) = (starFolder src f, n) := by
  unfold named starFolder
  rw [basename, folder_split h hn.1, List.getLast?_concat, List.dropLast_concat]
  rfl

/-- extraction puts a file where it belongs -/
theorem home_star (src : Dir) (idx : D) (hs : ∀ c ∈ src, V8.Path.Plain c) (p : Dir) (hp : ∀ c ∈ p, V8.Path.Plain c) (n : Text) (hn : V8.Path.Plain n)
    (hclean : ∀ e, (J.obj idx).at (p ++ [n]) = some (.str e) → e ≠ [] → CleanEntry e)
    (hfile : ∀ v, (J.obj idx).at (p ++ [n]) = some v → v = .null ∨ ∃ e, v = .str e)
    (hwild : ∀ v, (J.obj idx).at (p ++ [['*']]) = some v → ∃ f, v = .str f ∧ CleanFolder f)
    (hway : ∀ q, q <+: p → (J.obj idx).at q = none ∨ ∃ d, (J.obj idx).at q = some (.obj d)) :
    home src idx p n = some (starTarget src idx p n) := by
  have hf := folders_join p hp
  cases ha : (J.obj idx).at (p ++ [n]) with
  | none =>
    cases hw : (J.obj idx).at (p ++ [['*']]) with
    | none =>
      rw [home_eq src idx hs p hp n hclean hfile hw hway]
      unfold target starTarget
      rw [ha, hw]
    | some v =>
      obtain ⟨f, rfl, hcf⟩ := hwild v hw
      unfold home starTarget
      rw [ha, hw, C23_wildcard idx (join '/' p) n f false hn.2.1 (by rw [hf]; exact ha) (by rw [hf]; exact hw), Option.map_some]
      simp only
      rw [queued_file false src hs _ (folder_entry hcf hn), show base false src = src from rfl, folder_named src hcf hn]
  | some v =>
    have hnull : ∀ v, (v = .null ∨ v = .str []) → (J.obj idx).at (p ++ [n]) = some v → getDestPath (some idx) (join '/' p) n false = some (join '/' p, n) := by
      intro v hv ha
      obtain ⟨d, h1, h2⟩ := (at_last _ _ _ _).mp ha
      have hw := (walk_at p (.obj idx) (.obj d)).mpr h1
      have hg : getFromIndex idx (join '/' p) n = .value v := by
        unfold getFromIndex
        rw [show (if join '/' p = [] then [] else split '/' (join '/' p)) = p from hf, hw]
        simp only [h2]
      have hnn := index_ne_nil ha
      unfold getDestPath
      cases idx with
      | nil => exact absurd rfl hnn
      | cons k x r =>
        simp only [hg]
        rcases hv with rfl | rfl
        · rfl
        · simp
    unfold home starTarget
    rcases hfile v ha with rfl | ⟨e, rfl⟩
    · rw [hnull _ (.inl rfl) ha, Option.map_some, place_own src hs p hp, ha]
    · by_cases he : e = []
      · subst he
        rw [hnull _ (.inr rfl) ha, Option.map_some, place_own src hs p hp, ha]
        simp
      · rw [C23_exact_entry idx (join '/' p) n e false he (by rw [hf]; exact ha), Option.map_some, ha]
        simp only [if_neg he]
        exact congrArg some (queued_file false src hs e (hclean e ha he))

/-! ### the entries of an index -/

/-- the operation for a file of the folder of a `*` entry -/
def starOp (path : List Text) (x : List Text × Text) (n : Text) : Op := ⟨(path ++ x.1.dropLast, n), pjoin x.2 n, isQueued n⟩

theorem starOp_cons (path : List Text) (k : Text) (x : List Text × Text) (hx : x.1 ≠ []) (n : Text) : starOp path (k :: x.1, x.2) n = starOp (path ++ [k]) x n := by
  obtain ⟨q, e⟩ := x
  cases q with
  | nil => exact absurd rfl hx
  | cons a r => simp [starOp, List.dropLast]

theorem mapM_packElem (cwd : Text → Option (List (Text × Bool))) (path : List Text) (f : Text) : ∀ l : List Text,
    l.mapM (fun n => packElem ⟨cwd, some⟩ path n (pjoin f n)) = some (l.map (starOp path ([['*']], f)))
  | [] => rfl
  | n :: l => by
    rw [List.mapM_cons, mapM_packElem cwd path f l]
    simp [packElem, starOp]

/-- the last key of an entry -/
def lastKey (x : List Text × Text) : Text := x.1.getLast?.getD []

theorem lastKey_cons (k : Text) (x : List Text × Text) (hx : x.1 ≠ []) : lastKey (k :: x.1, x.2) = lastKey x := by
  obtain ⟨q, e⟩ := x
  cases q with
  | nil => exact absurd rfl hx
  | cons a r => simp [lastKey, List.getLast?_cons_cons]

/-- what the walk through an index collects: the entries, and the files listed in the folders of the `*` entries -/
structure Collected (cwd : Text → Option (List (Text × Bool))) (path : List Text) (d : D) (done : List Text) (ops : List Op) : Prop where
  only : ∀ o ∈ ops, ∃ x ∈ entriesOf d, (lastKey x ≠ ['*'] ∧ o = opOf path x) ∨
    (lastKey x = ['*'] ∧ ∃ names n, cwd x.2 = some names ∧ (n, true) ∈ names ∧ o = starOp path x n)
  exact : ∀ x ∈ entriesOf d, lastKey x ≠ ['*'] → opOf path x ∈ ops
  star : ∀ x ∈ entriesOf d, lastKey x = ['*'] → ∀ names n, cwd x.2 = some names → (n, true) ∈ names → (x.1.dropLast = [] → n ∉ done) →
    (∀ e, (J.obj d).at (x.1.dropLast ++ [n]) = some (.str e) → e = []) → starOp path x n ∈ ops

theorem entry_key (d : D) : ∀ x ∈ entriesOf d, ∃ k t, x.1 = k :: t ∧ k ∈ d.keys := by
  match d with
  | .nil => intro x hx; rw [entriesOf] at hx; cases hx
  | .cons k v r =>
    intro x hx
    rw [entriesOf] at hx
    rcases List.mem_append.mp hx with hx | hx
    · by_cases hk : k = areasKey
      · rw [if_pos hk] at hx; cases hx
      rw [if_neg hk, List.mem_map] at hx
      obtain ⟨y, _, rfl⟩ := hx
      exact ⟨k, y.1, rfl, by rw [D.keys]; exact List.mem_cons_self⟩
    · obtain ⟨k', t, h1, h2⟩ := entry_key r x hx
      exact ⟨k', t, h1, by rw [D.keys]; exact List.mem_cons_of_mem _ h2⟩

theorem dropLast_app {x : List Text × Text} {k : Text} {t : List Text} (h : x.1 = k :: t) (n : Text) :
    (x.1.dropLast = [] ∧ x.1.dropLast ++ [n] = [n]) ∨ ∃ y, x.1.dropLast ++ [n] = k :: y ∧ x.1.dropLast ≠ [] := by
  rw [h]
  cases t with
  | nil => exact .inl ⟨rfl, rfl⟩
  | cons a b => exact .inr ⟨_, rfl, by simp⟩

/-- an entry put before others that are collected -/
theorem collected_skip {cwd : Text → Option (List (Text × Bool))} {path : List Text} {k : Text} {v : J} {r : D} {done done' : List Text} {ops : List Op}
    (hk : k ∉ r.keys) (h : Collected cwd path r done' ops) (hd : ∀ n, n ∉ done → (n = k → ∀ e, v = .str e → e = []) → n ∉ done') (own : List Op)
    (h0 : ∀ o ∈ own, ∃ x ∈ entriesOf (.cons k v r), (lastKey x ≠ ['*'] ∧ o = opOf path x) ∨
      (lastKey x = ['*'] ∧ ∃ names n, cwd x.2 = some names ∧ (n, true) ∈ names ∧ o = starOp path x n))
    (h1 : ∀ x ∈ (if k = areasKey then [] else (entriesV v).map (fun x => (k :: x.1, x.2))), lastKey x ≠ ['*'] → opOf path x ∈ own)
    (h2 : ∀ x ∈ (if k = areasKey then [] else (entriesV v).map (fun x => (k :: x.1, x.2))), lastKey x = ['*'] → ∀ names n, cwd x.2 = some names →
      (n, true) ∈ names → (x.1.dropLast = [] → n ∉ done) → (∀ e, (J.obj (.cons k v r)).at (x.1.dropLast ++ [n]) = some (.str e) → e = []) → starOp path x n ∈ own) :
    Collected cwd path (.cons k v r) done (own ++ ops) := by
  refine ⟨?_, ?_, ?_⟩
  · intro o ho
    rcases List.mem_append.mp ho with ho | ho
    · exact h0 o ho
    · obtain ⟨x, hx, hh⟩ := h.only o ho
      exact ⟨x, by rw [entriesOf]; exact List.mem_append_right _ hx, hh⟩
  · intro x hx hl
    rw [entriesOf] at hx
    rcases List.mem_append.mp hx with hx | hx
    · exact List.mem_append_left _ (h1 x hx hl)
    · exact List.mem_append_right _ (h.exact x hx hl)
  · intro x hx hl names n hc hn hdone hat
    rw [entriesOf] at hx
    rcases List.mem_append.mp hx with hx | hx
    · exact List.mem_append_left _ (h2 x hx hl names n hc hn hdone hat)
    · obtain ⟨k', t, e1, e2⟩ := entry_key r x hx
      have hkk : k ≠ k' := fun e => hk (e ▸ e2)
      refine List.mem_append_right _ (h.star x hx hl names n hc hn ?_ ?_)
      · intro hnil
        refine hd n (hdone hnil) ?_
        rintro rfl e rfl
        exact hat e (by rw [hnil, List.nil_append, at_obj, D.get, if_pos rfl, Option.bind_some, at_nil])
      · intro e he
        refine hat e ?_
        rcases dropLast_app e1 n with ⟨g1, g2⟩ | ⟨y, g1, g2⟩
        · rw [g2, at_obj] at he ⊢
          by_cases hkn : k = n
          · rw [← hkn, (D.get_none r k).mpr hk] at he
            cases he
          · rw [D.get, if_neg hkn]
            exact he
        · rw [g1, at_obj] at he ⊢
          rw [D.get, if_neg hkk]
          exact he

/-- the walk through a tidy index succeeds -/
theorem packIndex_star (cwd : Text → Option (List (Text × Bool))) (d : D) (path done : List Text) (hw : d.WF) (h : TidyStar d) :
    ∃ ops, packIndex ⟨cwd, some⟩ path d done = some ops ∧ Collected cwd path d done ops := by
  match d with
  | .nil =>
    refine ⟨[], by rw [packIndex], ⟨fun o ho => (by cases ho), fun x hx => ?_, fun x hx => ?_⟩⟩ <;> (rw [entriesOf] at hx; cases hx)
  | .cons k v r =>
    rw [TidyStar] at h
    rw [D.WF] at hw
    obtain ⟨w1, w2, w3⟩ := hw
    have hstep := packIndex_step ⟨cwd, some⟩ path k v r done
    -- an entry that is passed over
    have skip : (k = areasKey || !truthy v) = true → (∀ x, x ∉ (if k = areasKey then [] else (entriesV v).map (fun x => (k :: x.1, x.2)))) →
        ∃ ops, packIndex ⟨cwd, some⟩ path (.cons k v r) done = some ops ∧ Collected cwd path (.cons k v r) done ops := by
      intro hc hnone
      obtain ⟨ops, h1, h2⟩ := packIndex_star cwd r path done w3 h.2
      refine ⟨[] ++ ops, by rw [hstep, if_pos hc, h1]; rfl, collected_skip w1 h2 (fun n a _ => a) [] (fun o ho => by cases ho) (fun x hx => absurd hx (hnone x))
        (fun x hx => absurd hx (hnone x))⟩
    by_cases hk : k = areasKey
    · exact skip (by simp [hk]) (fun x hx => by rw [if_pos hk] at hx; cases hx)
    have hin : ∀ x, x ∈ (if k = areasKey then [] else (entriesV v).map (fun x => (k :: x.1, x.2))) ↔ ∃ y ∈ entriesV v, x = (k :: y.1, y.2) := by
      intro x
      rw [if_neg hk, List.mem_map]
      constructor
      · rintro ⟨y, h1, rfl⟩; exact ⟨y, h1, rfl⟩
      · rintro ⟨y, h1, rfl⟩; exact ⟨y, h1, rfl⟩
    rcases h.1.resolve_left hk with ⟨hst, hv⟩ | ⟨rfl, f, rfl, hf⟩
    · have hks : k ≠ ['*'] := by rintro rfl; exact absurd hst (by decide)
      cases v with
      | null => exact skip (by simp [truthy]) (fun x hx => by obtain ⟨y, hy, _⟩ := (hin x).mp hx; simp [entriesV] at hy)
      | scalar x =>
        rw [TidyStarV] at hv
        exact skip (by rw [hv]; simp) (fun x hx => by obtain ⟨y, hy, _⟩ := (hin x).mp hx; simp [entriesV] at hy)
      | arr x =>
        rw [TidyStarV] at hv
        exact skip (by simp [truthy, hv]) (fun x hx => by obtain ⟨y, hy, _⟩ := (hin x).mp hx; simp [entriesV] at hy)
      | str e =>
        by_cases he : e = []
        · exact skip (by simp [truthy, he]) (fun x hx => by obtain ⟨y, hy, _⟩ := (hin x).mp hx; simp [entriesV, he] at hy)
        obtain ⟨ops, h1, h2⟩ := packIndex_star cwd r path (done ++ [k]) w3 h.2
        have hl : lastKey ([k], e) ≠ ['*'] := hks
        have hin' : ∀ x, x ∈ (if k = areasKey then [] else (entriesV (.str e)).map (fun x => (k :: x.1, x.2))) ↔ x = ([k], e) := by
          intro x
          rw [hin, entriesV, if_neg he]
          constructor
          · rintro ⟨y, hy, rfl⟩; rw [List.mem_singleton.mp hy]
          · rintro rfl; exact ⟨_, List.mem_singleton.mpr rfl, rfl⟩
        refine ⟨[opOf path ([k], e)] ++ ops, ?_, collected_skip w1 h2 ?_ _ ?_ ?_ ?_⟩
        · rw [hstep, if_neg (by simp [truthy, he, hk]), if_neg (by rw [hst]; simp)]
          simp only [packElem, Option.map_some, Option.bind_some, h1]
          simp [opOf]
        · intro n a b hm
          rcases List.mem_append.mp hm with hm | hm
          · exact a hm
          · exact he (b (List.mem_singleton.mp hm) e rfl)
        · intro o ho
          exact ⟨([k], e), by rw [entriesOf]; exact List.mem_append_left _ ((hin' _).mpr rfl), .inl ⟨hl, List.mem_singleton.mp ho⟩⟩
        · intro x hx _
          rw [(hin' x).mp hx]
          exact List.mem_singleton.mpr rfl
        · intro x hx hh
          rw [(hin' x).mp hx] at hh
          exact absurd hh hl
      | obj d' =>
        rw [TidyStarV] at hv
        cases hd' : d' with
        | nil => exact hd' ▸ skip (by simp [truthy, hd']) (fun x hx => by obtain ⟨y, hy, _⟩ := (hin x).mp hx; simp [entriesV, hd', entriesOf] at hy)
        | cons a b c =>
          rw [J.WF] at w2
          obtain ⟨ops1, g1, g2⟩ := packIndex_star cwd d' (path ++ [k]) [] w2 hv
          obtain ⟨ops, h1, h2⟩ := packIndex_star cwd r path done w3 h.2
          have hin' : ∀ x, x ∈ (if k = areasKey then [] else (entriesV (.obj d')).map (fun x => (k :: x.1, x.2))) ↔ ∃ y ∈ entriesOf d', x = (k :: y.1, y.2) := by
            intro x
            rw [hin, entriesV]
          rw [← hd']
          refine ⟨ops1 ++ ops, ?_, collected_skip w1 h2 (fun n a _ => a) _ ?_ ?_ ?_⟩
          · rw [hstep, if_neg (by simp [truthy, hk, hd']), if_neg (by rw [hst]; simp)]
            simp only
            rw [g1, Option.bind_some, h1, Option.map_some]
          · intro o ho
            obtain ⟨y, hy, hh⟩ := g2.only o ho
            have hne := entries_ne d' y hy
            refine ⟨(k :: y.1, y.2), by rw [entriesOf]; exact List.mem_append_left _ ((hin' _).mpr ⟨y, hy, rfl⟩), ?_⟩
            rw [lastKey_cons k y hne, opOf_cons path k y hne]
            rcases hh with hh | ⟨e1, names, n, e2, e3, e4⟩
            · exact .inl hh
            · exact .inr ⟨e1, names, n, e2, e3, by rw [starOp_cons path k y hne]; exact e4⟩
          · intro x hx hl
            obtain ⟨y, hy, rfl⟩ := (hin' x).mp hx
            have hne := entries_ne d' y hy
            rw [lastKey_cons k y hne] at hl
            rw [opOf_cons path k y hne]
            exact g2.exact y hy hl
          · intro x hx hl names n hc hn hdone hat
            obtain ⟨y, hy, rfl⟩ := (hin' x).mp hx
            have hne := entries_ne d' y hy
            rw [lastKey_cons k y hne] at hl
            rw [starOp_cons path k y hne]
            refine g2.star y hy hl names n hc hn (fun _ => List.not_mem_nil) ?_
            have e : (k :: y.1).dropLast = k :: y.1.dropLast := by
              cases hy1 : y.1 with
              | nil => exact absurd hy1 hne
              | cons _ _ => rfl
            intro z hz
            refine hat z ?_
            rw [e, List.cons_append, at_obj, D.get, if_pos rfl, Option.bind_some]
            exact hz
    · have hin' : ∀ x, x ∈ (if (['*'] : Text) = areasKey then [] else (entriesV (.str f)).map (fun x => ((['*'] : Text) :: x.1, x.2))) ↔ x = ([['*']], f) := by
        intro x
        rw [hin, entriesV, if_neg hf]
        constructor
        · rintro ⟨y, hy, rfl⟩; rw [List.mem_singleton.mp hy]
        · rintro rfl; exact ⟨_, List.mem_singleton.mpr rfl, rfl⟩
      obtain ⟨ops, h1, h2⟩ := packIndex_star cwd r path done w3 h.2
      have hl : lastKey ([['*']], f) = ['*'] := rfl
      have hstep2 := hstep
      rw [if_neg (by simp [truthy, hf, hk]), if_pos (by decide)] at hstep2
      simp only at hstep2
      cases hcw : cwd f with
      | none =>
        rw [hcw] at hstep2
        simp only at hstep2
        refine ⟨[] ++ ops, by rw [hstep2, h1]; rfl, collected_skip w1 h2 (fun n a _ => a) [] (fun o ho => by cases ho) ?_ ?_⟩
        · intro x hx hh
          rw [(hin' x).mp hx] at hh
          exact absurd hl hh
        · intro x hx _ names n hc
          rw [(hin' x).mp hx] at hc
          rw [hcw] at hc
          cases hc
      | some names =>
        rw [hcw] at hstep2
        simp only at hstep2
        rw [mapM_packElem cwd path f, Option.bind_some, h1, Option.map_some] at hstep2
        refine ⟨_, hstep2, collected_skip w1 h2 (fun n a _ => a) _ ?_ ?_ ?_⟩
        · intro o ho
          obtain ⟨n, hn, rfl⟩ := List.mem_map.mp ho
          unfold wildNames at hn
          obtain ⟨m, hm, rfl⟩ := List.mem_map.mp hn
          obtain ⟨m1, m2⟩ := List.mem_filter.mp hm
          rw [Bool.and_eq_true, Bool.and_eq_true] at m2
          refine ⟨([['*']], f), by rw [entriesOf]; exact List.mem_append_left _ ((hin' _).mpr rfl), .inr ⟨hl, names, m.1, hcw, ?_, rfl⟩⟩
          have : m = (m.1, true) := by rw [← m2.2]
          rw [← this]
          exact m1
        · intro x hx hh
          rw [(hin' x).mp hx] at hh
          exact absurd hl hh
        · intro x hx _ names' n hc hn hdone hat
          have hx' := (hin' x).mp hx
          subst hx'
          simp only at hc
          rw [hcw] at hc
          cases hc
          refine List.mem_map.mpr ⟨n, ?_, rfl⟩
          unfold wildNames
          refine List.mem_map.mpr ⟨(n, true), List.mem_filter.mpr ⟨hn, ?_⟩, rfl⟩
          have hd : n ∉ done := hdone rfl
          have hs : (split '-' ['*']).tail = [] := by decide
          simp [hd, hs]
termination_by sizeOf d

end V8.OrgIndex
