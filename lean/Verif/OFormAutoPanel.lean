import Verif.OFormAutoLoop
/-
One panel of an ordinary form with the option auto_include.
-/
namespace V8.OAuto
open V8.Brace V8.Dec
open V8.Form (count countAt dictGet marker nonEmpty calcOffset truthy Rec countAt_congr countAt_some idx nameAt dictGet_mem dictGet_some hashable seq)
open V8.OForm hiding formOut formIn elemOut elemIn elemsOut elemsIn elemsLoop

/-! ### what a form must be like -/

/-- nothing follows the elements in their list, and they have different numbers -/
structure TidyList (er : List Val) : Prop where
  size : ∀ n, countAt er 0 = some n → er.length ≤ n + 1
  ids : ((listsOf er).map (fun raw => raw[1]?)).Nodup

/-- an element is in the usual form: the ends tied to the panel name one of its borders; a nested panel has pages and elements in the usual form -/
structure TidyElem (raw : List Val) : Prop where
  ends : ∀ a, placeOf raw = some a → (hits [] a).isSome = true
  pages : raw[0]? = some (.str panelKind) → ∀ pr, get2 raw 2 1 = some (.list pr) → TidyPages pr
  elems : raw[0]? = some (.str panelKind) → ∀ er, fromEnd raw 1 = some (.list er) → TidyList er

/-- all elements in a list of elements, those of nested panels too -/
def allElems : Nat → List Val → List (List Val)
  | 0, _ => []
  | d + 1, er => (listsOf er).flatMap (fun raw => raw :: (if raw[0]? = some (.str panelKind) then (match fromEnd raw 1 with
      | some (.list er2) => allElems d er2
      | _ => []) else []))

/-! ### places -/

theorem fromEnd_three (raw : List Val) (v : Val) (h : fromEnd raw 3 = some v) : 3 ≤ raw.length ∧ raw[raw.length - 3]? = some v := by
  rw [fromEnd] at h
  by_cases hc : 3 ≤ raw.length
  · rw [if_pos (by omega)] at h; exact ⟨hc, h⟩
  · rw [if_neg (by omega)] at h; cases h

theorem placeOf_iff (raw a : List Val) : placeOf raw = some a ↔ 3 ≤ raw.length ∧ raw[raw.length - 3]? = some (.list a) := by
  constructor
  · intro h
    rw [placeOf] at h
    cases hf : fromEnd raw 3 with
    | none => rw [hf] at h; cases h
    | some v =>
      cases v with
      | none => rw [hf] at h; cases h
      | str _ => rw [hf] at h; cases h
      | list l => rw [hf] at h; cases h; exact fromEnd_three raw _ hf
  · intro h
    rw [placeOf, fromEnd, if_pos (by omega), h.2]

theorem placeOf_set (raw a b : List Val) (h : placeOf raw = some a) : placeOf (setPlace raw b) = some b := by
  rw [placeOf_iff] at h ⊢
  rw [setPlace, List.length_set]
  exact ⟨h.1, List.getElem?_set_self (by omega)⟩

theorem setPlace_set (raw a b : List Val) : setPlace (setPlace raw a) b = setPlace raw b := by
  rw [setPlace, setPlace, List.length_set, List.set_set, setPlace]

theorem setPlace_same (raw a : List Val) (h : placeOf raw = some a) : setPlace raw a = raw := by
  rw [placeOf_iff] at h
  exact Form.set_same raw _ _ h.2

/-! ### ends tied to the panel -/

theorem endHit_id (i j : Text) (b : Nat) (f v : Val) : (endHit i b f v).isSome = (endHit j b f v).isSome := by
  match v with
  | .list (_ :: .str t :: r) =>
    rw [endHit, endHit]
    by_cases h : t = ['0']
    · rw [if_pos h, if_pos h, Option.isSome_map, Option.isSome_map]
    · rw [if_neg h, if_neg h]
  | .none => rfl
  | .str _ => rfl
  | .list [] => rfl
  | .list [_] => rfl
  | .list (_ :: .none :: _) => rfl
  | .list (_ :: .list _ :: _) => rfl

theorem bind_map_isSome {α β : Type} (a b : Option (List α)) (f : List α → List α → β) :
    (a.bind (fun x => b.map (fun y => f x y))).isSome = (a.isSome && b.isSome) := by
  cases a <;> cases b <;> rfl

theorem borderHits_id (i j : Text) (b : Nat) (v : Val) : (borderHits i b v).isSome = (borderHits j b v).isSome := by
  match v with
  | .list (a :: x :: y :: r) =>
    rw [borderHits, borderHits, bind_map_isSome, bind_map_isSome, endHit_id i j, endHit_id i j]
  | .none => rfl
  | .str _ => rfl
  | .list [] => rfl
  | .list [_] => rfl
  | .list [_, _] => rfl

theorem hitsFrom_id (i j : Text) : ∀ (n b : Nat) (l : List Val), (hitsFrom i b n l).isSome = (hitsFrom j b n l).isSome
  | 0, b, l => by rw [hitsFrom, hitsFrom]
  | n + 1, b, [] => by rw [hitsFrom, hitsFrom]
  | n + 1, b, v :: r => by rw [hitsFrom, hitsFrom, bind_map_isSome, bind_map_isSome, borderHits_id i j, hitsFrom_id i j n]

theorem hits_any (id : Text) (a : List Val) (h : (hits [] a).isSome = true) : ∃ hs, hits id a = some hs := by
  rw [← Option.isSome_iff_exists, hits, hitsFrom_id id [] 6 0, ← hits, h]

/-! ### references there and back -/

/-- the keys of the elements of a panel -/
def KeyIn (path key : Text) : Prop := path ++ key.drop path.length = key ∧ '/' ∈ key.drop path.length

theorem ref_back (index1 M : List (Val × Text)) (index2 : List (Text × Text)) (path : Text)
    (known : ∀ t key, dictGet index1 (.str t) = some key → ∃ new, dictGet M (.str t) = some new ∧ dictGet index2 key = some new ∧ KeyIn path key)
    (unknown : ∀ t, dictGet index1 (.str t) = none → dictGet M (.str t) = none) (o o' : Text → Text)
    (other : ∀ t n, num t = some n → toId index2 path (o t) = some (o' t)) (t u : Text) (h : toName index1 path o t = some u) :
    toId index2 path u = some (newRef M o' t) := by
  rw [toName, Option.map_eq_some_iff] at h
  obtain ⟨n, hn, h⟩ := h
  rw [newRef, hn]
  simp only
  by_cases h0 : 0 < n
  · rw [if_pos h0] at h ⊢
    cases hg : dictGet index1 (.str t) with
    | none =>
      rw [hg] at h
      simp only at h
      rw [unknown t hg, ← h]
      exact other t n hn
    | some key =>
      rw [hg] at h
      simp only at h
      obtain ⟨new, h1, h2, h3, h4⟩ := known t key hg
      rw [h1, ← h, toId, num_slash _ h4]
      rw [if_neg (by simp), h3, h2]
      rfl
  · rw [if_neg h0] at h ⊢
    rw [← h, toId, hn]
    rfl

theorem ref_zero (index1 : List (Val × Text)) (path : Text) (o : Text → Text)
    (known : ∀ t key, dictGet index1 (.str t) = some key → '/' ∈ key.drop path.length) (ho : ∀ t, '/' ∈ o t) (t u : Text)
    (h : toName index1 path o t = some u) : u = ['0'] ↔ t = ['0'] := by
  rw [toName, Option.map_eq_some_iff] at h
  obtain ⟨n, hn, h⟩ := h
  have hs : ∀ w : Text, '/' ∈ w → w ≠ ['0'] := by
    intro w hw e
    rw [e] at hw
    exact absurd hw (by decide)
  by_cases h0 : 0 < n
  · rw [if_pos h0] at h
    have ht : t ≠ ['0'] := by
      intro e
      have hz : num ['0'] = some 0 := by
        have e0 : showNat 0 = ['0'] := by rw [showNat]; rfl
        have hp : parseInt ['0'] = some 0 := by rw [← e0]; exact parse_showNat 0
        rw [num, hp]
        exact if_pos e0
      rw [e, hz] at hn
      cases hn
      omega
    refine ⟨fun e => ?_, fun e => absurd e ht⟩
    exfalso
    cases hg : dictGet index1 (.str t) with
    | none => rw [hg] at h; exact hs _ (ho t) (h.trans e)
    | some key => rw [hg] at h; exact hs _ (known t key hg) (h.trans e)
  · rw [if_neg h0] at h
    rw [h]

/-! ### pages -/

theorem pages_perm {α : Type} (pg : α → Nat) (p : α) (ps : List α) : ∀ (I : List Nat), I.Nodup → pg p ∈ I →
    (I.flatMap (fun i => (p :: ps).filter (fun x => decide (pg x = i)))).Perm (p :: I.flatMap (fun i => ps.filter (fun x => decide (pg x = i))))
  | [], _, h => by cases h
  | i :: I, hn, h => by
    rw [List.flatMap_cons, List.flatMap_cons]
    by_cases hi : pg p = i
    · rw [List.filter_cons_of_pos (by simpa using hi)]
      have : I.flatMap (fun i => (p :: ps).filter (fun x => decide (pg x = i))) = I.flatMap (fun i => ps.filter (fun x => decide (pg x = i))) := by
        rw [List.flatMap_def, List.flatMap_def]
        congr 1
        apply List.map_congr_left
        intro j hj
        rw [List.filter_cons_of_neg]
        have : pg p ≠ j := by
          intro e
          rw [hi] at e
          exact (List.nodup_cons.mp hn).1 (by rw [e]; exact hj)
        simpa using this
      rw [this]
      exact List.Perm.refl _
    · rw [List.filter_cons_of_neg (by simpa using hi)]
      have hm : pg p ∈ I := by
        rcases List.mem_cons.mp h with e | e
        · exact absurd e hi
        · exact e
      have ih := pages_perm pg p ps I (List.nodup_cons.mp hn).2 hm
      exact (List.Perm.append_left _ ih).trans List.perm_middle

theorem byPages_perm {α : Type} (pg : α → Nat) (n : Nat) : ∀ (ps : List α), (∀ p ∈ ps, pg p < n) →
    ((List.range n).flatMap (fun i => ps.filter (fun x => decide (pg x = i)))).Perm ps
  | [], _ => by
    have : (List.range n).flatMap (fun i => ([] : List α).filter (fun x => decide (pg x = i))) = [] := by
      rw [List.flatMap_eq_nil_iff]
      intro i _
      rfl
    rw [this]
  | p :: ps, h => by
    refine (pages_perm pg p ps _ List.nodup_range (List.mem_range.mpr (h p List.mem_cons_self))).trans ?_
    exact List.Perm.cons p (byPages_perm pg n ps (fun x hx => h x (List.mem_cons_of_mem _ hx)))

theorem each_both {α β : Type} (f g : α → Option β) : ∀ (l : List α), (∀ x ∈ l, ∃ r, f x = some r ∧ g x = some r) →
    ∃ rs, each f l = some rs ∧ each g l = some rs
  | [], _ => ⟨[], rfl, rfl⟩
  | x :: r, h => by
    obtain ⟨y, h1, h2⟩ := h x List.mem_cons_self
    obtain ⟨rs, h3, h4⟩ := each_both f g r (fun z hz => h z (List.mem_cons_of_mem _ hz))
    exact ⟨y :: rs, by rw [each, h1, Option.bind_some, h3]; rfl, by rw [each, h2, Option.bind_some, h4]; rfl⟩

/-! ### the elements of a panel -/

/-- what is known of an element and its item -/
structure Done (N : Nat) (names : List Text) (path : Text) (index1 : List (Val × Text))
    (renum : Nat → List Val → Option (List Val × Nat × List (Text × Text)))
    (g : Text → Nat → Node → Option (List Val × Nat × List (Text × Text))) (p : List Val × Item) : Prop where
  old : p.1[1]? = some p.2.id
  page : pageNo N p.1 = some p.2.page
  low : p.2.page < N
  refs : ∃ pg a a1, names[p.2.page]? = some pg ∧ p.2.key = pageId path pg ++ '/' :: nodeName p.2.node ∧ placeOf p.1 = some a ∧
    mapRefs (toName index1 path (fun _ => p.2.key.drop path.length)) (toName index1 path id) a = some a1 ∧ (hits [] a).isSome = true ∧
    ∀ last, ∃ x m s, renum last p.1 = some (x, m, s) ∧ g (pageId path pg) last p.2.node = some (setPlace x a1, m, s) ∧ placeOf x = some a

theorem panel_core (D : List (Text × Entry)) (path bpath : Text) (names : List Text) (pr pr' er q R : List Val) (c : Val)
    (renum : Nat → List Val → Option (List Val × Nat × List (Text × Text)))
    (g : Text → Nat → Node → Option (List Val × Nat × List (Text × Text))) (ps : List (List Val × Item))
    (hb1 : inside bpath = path) (hb2 : insideRef bpath = path)
    (hcount : pageCount pr = some names.length) (hskip : skipLists 4 (pr.drop 2) = some R)
    (hpages : pagesWith D path names pr' = some q) (hq1 : q.take 2 = pr.take 2) (hq2 : q.drop 6 = R)
    (her : listsOf (er.drop 1) = ps.map (·.1))
    (hids : (ps.map (·.2.id)).Nodup) (hkeys : (ps.map (·.2.key)).Nodup)
    (hdone : ∀ p ∈ ps, Done names.length names path (ps.map (fun p => (p.2.id, p.2.key))) renum g p) (last : Nat) :
    ∃ o, renumPanel renum last pr er = some o ∧ panelIn D g bpath (treeOf names (ps.map (·.2))) last pr' [c] = some o := by
  generalize hsps : (List.range names.length).flatMap (fun i => ps.filter (fun x => decide (x.2.page = i))) = sps
  have hperm : sps.Perm ps := by
    rw [← hsps]
    exact byPages_perm (fun x => x.2.page) names.length ps (fun p hp => (hdone p hp).low)
  -- the order of the elements
  have hby : byPage names.length (listsOf (er.drop 1)) = sps.map (·.1) := by
    rw [her, byPage, ← hsps, List.map_flatMap]
    rw [List.flatMap_def, List.flatMap_def]
    congr 1
    apply List.map_congr_left
    intro i _
    rw [List.filter_map]
    congr 1
    apply List.filter_congr
    intro p hp
    show decide (pageNo names.length p.1 = some i) = decide (p.2.page = i)
    rw [(hdone p hp).page]
    simp
  have hflat : flat path (treeOf names (ps.map (·.2))) = sps.map (fun p => (pageId path (names[p.2.page]?.getD []), p.2.node)) := by
    rw [flat, treeOf, ← hsps, List.map_flatMap, List.flatMap_map]
    rw [List.flatMap_def, List.flatMap_def]
    congr 1
    apply List.map_congr_left
    intro i _
    show (((ps.map (·.2)).filter (fun it => decide (it.page = i))).map (·.node)).map (fun n => (pageId path (names[i]?.getD []), n)) = _
    rw [List.filter_map, List.map_map, List.map_map]
    apply List.map_congr_left
    intro p hp
    have hpi : p.2.page = i := by
      have := (List.mem_filter.mp hp).2
      simpa using this
    show (pageId path (names[i]?.getD []), p.2.node) = (pageId path (names[p.2.page]?.getD []), p.2.node)
    rw [hpi]
  have hnames : (treeOf names (ps.map (·.2))).map nodeName = names := by
    rw [treeOf, List.map_map]
    apply List.ext_getElem?
    intro i
    rw [List.getElem?_map]
    by_cases hi : i < names.length
    · rw [List.getElem?_range hi, List.getElem?_eq_getElem hi]
      show some ((names[i]?).getD []) = _
      rw [List.getElem?_eq_getElem hi]
      rfl
    · rw [List.getElem?_eq_none (by rw [List.length_range]; omega), List.getElem?_eq_none (by omega)]
      rfl
  -- the loops
  let index1 := ps.map (fun p => (p.2.id, p.2.key))
  let F := fun (l : Nat) (p : List Val × Item) => (p.1[1]?).bind (fun old => (renum l p.1).map (fun x => ((old, showNat (l + 1), x.1), x.2)))
  let G := fun (l : Nat) (p : List Val × Item) => (g (pageId path (names[p.2.page]?.getD [])) l p.2.node).map
    (fun x => ((pageId path (names[p.2.page]?.getD []) ++ '/' :: nodeName p.2.node, showNat (l + 1), x.1), x.2))
  let Rel := fun (p : List Val × Item) (n : Nat) (b : Val × Text × List Val) (b' : Text × Text × List Val) =>
    ∃ a a1 x, b = (p.2.id, showNat (n + 1), x) ∧ b' = (p.2.key, showNat (n + 1), setPlace x a1) ∧ placeOf x = some a ∧
      mapRefs (toName index1 path (fun _ => p.2.key.drop path.length)) (toName index1 path id) a = some a1 ∧ (hits [] a).isSome = true
  obtain ⟨ts, L, S, t1, t2, t3, t4⟩ := lockstep F G Rel sps last (by
    intro p hp n
    have hd := hdone p (hperm.mem_iff.mp hp)
    obtain ⟨pg, a, a1, r1, r2, r3, r4, r5, r6⟩ := hd.refs
    obtain ⟨x, m, s, e1, e2, e3⟩ := r6 n
    refine ⟨(p.2.id, showNat (n + 1), x), (p.2.key, showNat (n + 1), setPlace x a1), m, s, ?_, ?_, a, a1, x, rfl, rfl, e3, r4, r5⟩
    · show (p.1[1]?).bind _ = _
      rw [hd.old, Option.bind_some, e1]
      rfl
    · show (g (pageId path (names[p.2.page]?.getD [])) n p.2.node).map _ = _
      rw [r1]
      show (g (pageId path pg) n p.2.node).map _ = _
      rw [e2, r2]
      rfl)
  have hkeyin : ∀ p ∈ ps, KeyIn path p.2.key := by
    intro p hp
    obtain ⟨pg, _, _, _, r2, _⟩ := (hdone p hp).refs
    rw [r2]
    exact ⟨pageId_prefix path pg _, pageId_rest path pg _⟩
  generalize hM : (ts.map (·.2.2.1)).map (fun x => (x.1, x.2.1)) = M at *
  generalize hI : (ts.map (·.2.2.2)).map (fun x => (x.1, x.2.1)) = index2 at *
  -- the two indexes of the build and of the specification
  have hM1 : M.map (·.1) = sps.map (·.2.id) := by
    rw [← hM, ← t1, List.map_map, List.map_map, List.map_map]
    apply List.map_congr_left
    intro t ht
    obtain ⟨a, a1, x, h1, _⟩ := t2 t ht
    show t.2.2.1.1 = t.1.2.id
    rw [h1]
  have hI1 : index2.map (·.1) = sps.map (·.2.key) := by
    rw [← hI, ← t1, List.map_map, List.map_map, List.map_map]
    apply List.map_congr_left
    intro t ht
    obtain ⟨a, a1, x, _, h1, _⟩ := t2 t ht
    show t.2.2.2.1 = t.1.2.key
    rw [h1]
  have hMn : (M.map (·.1)).Nodup := by rw [hM1]; exact ((hperm.map _).nodup_iff).mpr hids
  have hIn : (index2.map (·.1)).Nodup := by rw [hI1]; exact ((hperm.map _).nodup_iff).mpr hkeys
  have hboth : ∀ t ∈ ts, dictGet M t.1.2.id = some (showNat (t.2.1 + 1)) ∧ dictGet index2 t.1.2.key = some (showNat (t.2.1 + 1)) := by
    intro t ht
    obtain ⟨a, a1, x, h1, h2, _⟩ := t2 t ht
    constructor
    · have : (t.1.2.id, showNat (t.2.1 + 1)) ∈ M := by
        rw [← hM, List.map_map]
        exact List.mem_map.mpr ⟨t, ht, by show (t.2.2.1.1, t.2.2.1.2.1) = _; rw [h1]⟩
      exact dictGet_mem M hMn _ this
    · have : (t.1.2.key, showNat (t.2.1 + 1)) ∈ index2 := by
        rw [← hI, List.map_map]
        exact List.mem_map.mpr ⟨t, ht, by show (t.2.2.2.1, t.2.2.2.2.1) = _; rw [h2]⟩
      exact dictGet_mem index2 hIn _ this
  have known : ∀ t key, dictGet index1 (.str t) = some key → ∃ new, dictGet M (.str t) = some new ∧ dictGet index2 key = some new ∧ KeyIn path key := by
    intro t key h
    have hm := dictGet_some index1 _ _ h
    obtain ⟨p, hp, he⟩ := List.mem_map.mp hm
    obtain ⟨e1, e2⟩ := Prod.mk.inj he
    have hsp : p ∈ sps := hperm.mem_iff.mpr hp
    rw [← t1] at hsp
    obtain ⟨u, hu, hup⟩ := List.mem_map.mp hsp
    obtain ⟨b1, b2⟩ := hboth u hu
    have hup : u.1 = p := hup
    rw [hup] at b1 b2
    rw [e1] at b1
    rw [e2] at b2
    refine ⟨_, b1, b2, ?_⟩
    rw [← e2]
    exact hkeyin p hp
  have unknown : ∀ t, dictGet index1 (.str t) = none → dictGet M (.str t) = none := by
    intro t h
    cases hg : dictGet M (.str t) with
    | none => rfl
    | some new =>
      exfalso
      have hm := dictGet_some M _ _ hg
      have hm1 : Val.str t ∈ M.map (·.1) := List.mem_map.mpr ⟨_, hm, rfl⟩
      rw [hM1] at hm1
      obtain ⟨p, hp, he⟩ := List.mem_map.mp hm1
      obtain ⟨w, hw⟩ := dictGet_key index1 p.2.id p.2.key (List.mem_map.mpr ⟨p, hperm.mem_iff.mp hp, rfl⟩)
      have he : p.2.id = .str t := he
      rw [he] at hw
      rw [hw] at h
      cases h
  -- the references of every element
  obtain ⟨rs, hr1, hr2⟩ := each_both (fun t : (List Val × Item) × Nat × (Val × Text × List Val) × (Text × Text × List Val) =>
      newRefs M t.2.2.1.2.1 t.2.2.1.2.2) (fun t => idRefs index2 path t.2.2.2.2.1 t.2.2.2.2.2) ts (by
    intro t ht
    obtain ⟨a, a1, x, h1, h2, h3, h4, h5⟩ := t2 t ht
    obtain ⟨hs, hhs⟩ := hits_any (showNat (t.2.1 + 1)) a h5
    have htp : t.1 ∈ ps := by
      apply hperm.mem_iff.mp
      rw [← t1]
      exact List.mem_map.mpr ⟨t, ht, rfl⟩
    have hki := hkeyin t.1 htp
    have hsame : toId index2 path (t.1.2.key.drop path.length) = some (showNat (t.2.1 + 1)) := by
      rw [toId, num_slash _ hki.2, if_neg (by simp), hki.1, (hboth t ht).2]
    obtain ⟨b, hb1, hb2⟩ := mapRefs_comp _ _ (toId index2 path) (toId index2 path)
      (newRef M (fun _ => showNat (t.2.1 + 1))) (newRef M (fun t => t))
      (ref_back index1 M index2 path known unknown _ _ (fun _ _ _ => hsame))
      (ref_back index1 M index2 path known unknown _ _ (fun t n hn => by rw [toId, id, hn]; rfl)) a a1 h4
    have hz := hits_map _ _ (ref_zero index1 path _ (fun t key h => by
      obtain ⟨_, _, _, hk⟩ := known t key h
      exact hk.2) (fun _ => hki.2)) (showNat (t.2.1 + 1)) a a1 h4
    refine ⟨(setPlace x b, hs), ?_, ?_⟩
    · show newRefs M t.2.2.1.2.1 t.2.2.1.2.2 = _
      rw [h1]
      simp only
      rw [newRefs, h3, Option.bind_some, hhs, Option.bind_some, hb2]
      rfl
    · show idRefs index2 path t.2.2.2.2.1 t.2.2.2.2.2 = _
      rw [h2]
      simp only
      rw [idRefs, placeOf_set x a a1 h3, Option.bind_some, hz, hhs, Option.bind_some, hb1]
      show some (setPlace (setPlace x a1) b, hs) = _
      rw [setPlace_set])
  have hspec : renumPanel renum last pr er = some (pr.take 2 ++ (anchorLists (rs.flatMap (·.2)) ++ R),
      .str (showNat rs.length) :: rs.map (fun x => .list x.1), L, S) := by
    rw [renumPanel, hcount, Option.bind_some, hby, numbered_map]
    show (numbered F last sps).bind _ = _
    rw [t3, Option.bind_some]
    simp only
    rw [hM, each_map, hr1, Option.bind_some, hskip]
    rfl
  refine ⟨_, hspec, ?_⟩
  rw [panelIn, hb1, hb2, hnames, hpages, Option.bind_some, hflat, numbered_map]
  show (numbered G last sps).bind _ = _
  rw [t4, Option.bind_some]
  simp only
  rw [hI, each_map, hr2, Option.bind_some]
  rw [hq1, hq2, List.nil_append]

end V8.OAuto
