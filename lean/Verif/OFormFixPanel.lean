import Verif.OFormFix
/-
Numbering anew what has been numbered anew changes nothing: panels and elements.
-/
namespace V8.OAuto
open V8.Brace V8.Dec
open V8.Form (count countAt dictGet calcOffset countAt_some dictGet_some)
open V8.OForm (fromEnd get2 set2 pagesTable panelKind get2_set2 set2_length set2_ne set2_set get2_set set2_set2 dictGet_key)

/-! ### references -/

theorem num_show (k : Nat) : num (showNat k) = some (k : Int) := by
  have h : parseInt (showNat k) = some (k : Int) := parse_showNat k
  rw [num, h]
  exact if_pos rfl

theorem show_zero (k : Nat) (h : showNat k = ['0']) : k = 0 := by
  have h1 := num_show k
  have h2 := num_show 0
  have e : showNat 0 = ['0'] := by rw [showNat]; rfl
  rw [h] at h1
  rw [e] at h2
  rw [h1] at h2
  have := Option.some.inj h2
  omega

theorem show_inj (j k : Nat) (h : showNat j = showNat k) : j = k := by
  have h1 := num_show j
  rw [h, num_show k] at h1
  have := Option.some.inj h1
  omega

/-- a reference after the numbering is a number of the panel, or as before -/
theorem newRef_cases (M : List (Val × Text)) (o : Text → Text) (t : Text) :
    (∃ n, num t = some n ∧ 0 < n ∧ dictGet M (.str t) = some (newRef M o t)) ∨
    (∃ n, num t = some n ∧ 0 < n ∧ dictGet M (.str t) = none ∧ newRef M o t = o t) ∨
    ((∀ n, num t = some n → ¬ 0 < n) ∧ newRef M o t = t) := by
  rw [newRef]
  cases hn : num t with
  | none => exact .inr (.inr ⟨(fun n h => by cases h), rfl⟩)
  | some n =>
    simp only
    by_cases h0 : 0 < n
    · rw [if_pos h0]
      cases hd : dictGet M (.str t) with
      | none => exact .inr (.inl ⟨n, rfl, h0, rfl, rfl⟩)
      | some u => exact .inl ⟨n, rfl, h0, rfl⟩
    · rw [if_neg h0]
      exact .inr (.inr ⟨fun m hm => (by cases hm; exact h0), rfl⟩)

theorem newRef_other (M : List (Val × Text)) (o : Text → Text) (t : Text) (h : ∀ n, num t = some n → ¬ 0 < n) : newRef M o t = t := by
  rw [newRef]
  cases hn : num t with
  | none => rfl
  | some n => exact if_neg (h n hn)

theorem newRef_hit (M : List (Val × Text)) (o : Text → Text) (t u : Text) (n : Int) (hn : num t = some n) (h0 : 0 < n) (h : dictGet M (.str t) = some u) :
    newRef M o t = u := by
  rw [newRef, hn]
  simp only
  rw [if_pos h0, h]
  rfl

theorem newRef_miss (M : List (Val × Text)) (o : Text → Text) (t : Text) (n : Int) (hn : num t = some n) (h0 : 0 < n) (h : dictGet M (.str t) = none) :
    newRef M o t = o t := by
  rw [newRef, hn]
  simp only
  rw [if_pos h0, h]
  rfl

/-- what stands beside the elements of a panel: their old numbers, their new numbers -/
def table (res : List (Val × Text × List Val)) : List (Val × Text) := res.map (fun x => (x.1, x.2.1))

/-- the same table for the form numbered anew -/
def table' (res : List (Val × Text × List Val)) : List (Val × Text) := res.map (fun x => (.str x.2.1, x.2.1))

theorem table'_get (res : List (Val × Text × List Val)) (x : Val × Text × List Val) (h : x ∈ res) : dictGet (table' res) (.str x.2.1) = some x.2.1 := by
  obtain ⟨w, hw⟩ := dictGet_key (table' res) (.str x.2.1) x.2.1 (List.mem_map.mpr ⟨x, h, rfl⟩)
  obtain ⟨y, _, he⟩ := List.mem_map.mp (dictGet_some _ _ _ hw)
  obtain ⟨e1, e2⟩ := Prod.mk.inj he
  rw [hw, ← e2]
  injection e1 with e1
  rw [e1]

theorem table'_id (res : List (Val × Text × List Val)) (t u : Text) (h : dictGet (table' res) (.str t) = some u) : u = t := by
  obtain ⟨y, _, he⟩ := List.mem_map.mp (dictGet_some _ _ _ h)
  obtain ⟨e1, e2⟩ := Prod.mk.inj he
  injection e1 with e1
  rw [← e1, ← e2]

/-- the numbers in the table are positive -/
def Numbers (res : List (Val × Text × List Val)) : Prop := ∀ x ∈ res, ∃ k, x.2.1 = showNat (k + 1)

theorem table_mem (res : List (Val × Text × List Val)) (v : Val) (u : Text) (h : dictGet (table res) v = some u) : ∃ x ∈ res, x.2.1 = u := by
  obtain ⟨y, hy, he⟩ := List.mem_map.mp (dictGet_some _ _ _ h)
  exact ⟨y, hy, (Prod.mk.inj he).2⟩

theorem ref_twice (res : List (Val × Text × List Val)) (hN : Numbers res) (x : Val × Text × List Val) (hx : x ∈ res) (t : Text) :
    newRef (table' res) (fun _ => x.2.1) (newRef (table res) (fun _ => x.2.1) t) = newRef (table res) (fun _ => x.2.1) t := by
  have known : ∀ y ∈ res, newRef (table' res) (fun _ => x.2.1) y.2.1 = y.2.1 := by
    intro y hy
    obtain ⟨k, hk⟩ := hN y hy
    have hg := table'_get res y hy
    exact newRef_hit _ _ _ _ ((k + 1 : Nat) : Int) (by rw [hk]; exact num_show _) (by omega) hg
  rcases newRef_cases (table res) (fun _ => x.2.1) t with ⟨n, hn, h0, hd⟩ | ⟨n, hn, h0, hd, he⟩ | ⟨ho, he⟩
  · obtain ⟨y, hy, hye⟩ := table_mem res _ _ hd
    rw [← hye]
    exact known y hy
  · rw [he]
    exact known x hx
  · rw [he]
    exact newRef_other _ _ _ ho

theorem ref_twice_id (res : List (Val × Text × List Val)) (t : Text) :
    newRef (table' res) (fun t => t) (newRef (table res) (fun t => t) t) = newRef (table res) (fun t => t) t := by
  generalize newRef (table res) (fun t => t) t = u
  rcases newRef_cases (table' res) (fun t => t) u with ⟨n, hn, h0, hd⟩ | ⟨n, hn, h0, hd, he⟩ | ⟨ho, he⟩
  · exact table'_id res _ _ hd
  · exact he
  · exact he

theorem ref_zero_iff (res : List (Val × Text × List Val)) (hN : Numbers res) (x : Val × Text × List Val) (hx : x ∈ res) (t u : Text)
    (h : some (newRef (table res) (fun _ => x.2.1) t) = some u) : u = ['0'] ↔ t = ['0'] := by
  have hz : num ['0'] = some 0 := by
    have e : showNat 0 = ['0'] := by rw [showNat]; rfl
    rw [← e]
    exact num_show 0
  have hne : ∀ y ∈ res, y.2.1 ≠ ['0'] := by
    intro y hy e
    obtain ⟨k, hk⟩ := hN y hy
    rw [hk] at e
    have := show_zero _ e
    omega
  have ht : ∀ n, num t = some n → 0 < n → t ≠ ['0'] := by
    intro n hn h0 e
    rw [e, hz] at hn
    have := Option.some.inj hn
    omega
  have h := Option.some.inj h
  rcases newRef_cases (table res) (fun _ => x.2.1) t with ⟨n, hn, h0, hd⟩ | ⟨n, hn, h0, hd, he⟩ | ⟨ho, he⟩
  · obtain ⟨y, hy, hye⟩ := table_mem res _ _ hd
    rw [h] at hye
    exact ⟨fun e => absurd (hye.trans e) (hne y hy), fun e => absurd e (ht n hn h0)⟩
  · rw [he] at h
    exact ⟨fun e => absurd (h.trans e) (hne x hx), fun e => absurd e (ht n hn h0)⟩
  · rw [he] at h
    rw [h]

/-- the references of an element, named twice -/
theorem newRefs_twice (res : List (Val × Text × List Val)) (hN : Numbers res) (x : Val × Text × List Val) (hx : x ∈ res) (y : List Val) (hs : List (Nat × Val))
    (h : newRefs (table res) x.2.1 x.2.2 = some (y, hs)) : newRefs (table' res) x.2.1 y = some (y, hs) ∧
      ∃ a b, placeOf x.2.2 = some a ∧ y = setPlace x.2.2 b ∧ b.map textIn = a.map textIn := by
  rw [newRefs] at h
  simp only [Option.bind_eq_some_iff, Option.map_eq_some_iff, Prod.mk.injEq] at h
  obtain ⟨a, ha, hs', hh, b, hb, rfl, rfl⟩ := h
  refine ⟨?_, a, b, ha, rfl, mapRefs_text _ _ _ _ hb⟩
  have hp := placeOf_set x.2.2 a b ha
  have hh' := hits_map _ _ (ref_zero_iff res hN x hx) x.2.1 a b hb
  obtain ⟨b', hb1, hb2⟩ := mapRefs_comp _ _ (fun t => some (newRef (table' res) (fun _ => x.2.1) t)) (fun t => some (newRef (table' res) (fun t => t) t))
    (fun t => newRef (table res) (fun _ => x.2.1) t) (fun t => newRef (table res) (fun t => t) t)
    (fun t u hu => by cases hu; rw [ref_twice res hN x hx]) (fun t u hu => by cases hu; rw [ref_twice_id res]) a b hb
  rw [hb] at hb2
  cases hb2
  rw [newRefs, hp, Option.bind_some, hh', hh, Option.bind_some, hb1]
  simp only [Option.map_some]
  rw [setPlace_set]

/-! ### numbers and attributes -/

/-- the elements that show attributes have numbers above `last`, up to `m` -/
def InRange (s : List (Text × Text)) (last m : Nat) : Prop := ∀ p ∈ s, ∃ k, last < k ∧ k ≤ m ∧ p.1 = showNat k

/-- `A'` gives the elements with numbers above `last`, up to `m`, the attributes of the list -/
def Agree (A' : Val → Option Text) (s : List (Text × Text)) (last m : Nat) : Prop :=
  ∀ k, last < k → k ≤ m → A' (.str (showNat k)) = dictGet s (showNat k)

theorem dictGet_append {α β : Type} [DecidableEq α] (a b : List (α × β)) (k : α) : dictGet (a ++ b) k = (dictGet b k).or (dictGet a k) := by
  rw [dictGet, dictGet, dictGet, List.reverse_append, List.find?_append]
  cases b.reverse.find? (fun e => decide (e.1 = k)) <;> rfl

theorem out_of_range (s : List (Text × Text)) (last m k : Nat) (h : InRange s last m) (hk : k ≤ last ∨ m < k) : dictGet s (showNat k) = none := by
  cases hd : dictGet s (showNat k) with
  | none => rfl
  | some v =>
    obtain ⟨j, h1, h2, h3⟩ := h _ (dictGet_some _ _ _ hd)
    have := show_inj _ _ h3
    omega

theorem agree_left (A' : Val → Option Text) (s s' : List (Text × Text)) (l m m' : Nat) (h : Agree A' (s ++ s') l m') (hs' : InRange s' m m') (hm : m ≤ m') :
    Agree A' s l m := by
  intro k h1 h2
  rw [h k h1 (by omega), dictGet_append, out_of_range s' m m' k hs' (.inl h2)]
  rfl

theorem agree_right (A' : Val → Option Text) (s s' : List (Text × Text)) (l m m' : Nat) (h : Agree A' (s ++ s') l m') (hs : InRange s l m) (hm : l ≤ m) :
    Agree A' s' m m' := by
  intro k h1 h2
  rw [h k (by omega) h2, dictGet_append, out_of_range s l m k hs (.inr h1), Option.or_none]

theorem range_append (s s' : List (Text × Text)) (l m m' : Nat) (hs : InRange s l m) (hs' : InRange s' m m') (h1 : l ≤ m) (h2 : m ≤ m') :
    InRange (s ++ s') l m' := by
  intro p hp
  rcases List.mem_append.mp hp with hp | hp
  · obtain ⟨k, a, b, c⟩ := hs p hp
    exact ⟨k, a, by omega, c⟩
  · obtain ⟨k, a, b, c⟩ := hs' p hp
    exact ⟨k, by omega, b, c⟩

/-! ### elements -/

/-- the place of an element is behind its kind and number; a panel has the usual length -/
structure Apart (raw : List Val) : Prop where
  size : 5 ≤ raw.length
  panel : raw[0]? = some (.str panelKind) → 6 ≤ raw.length

/-- what numbering an element gives, and that numbering the result changes nothing, wherever its references go -/
structure Fixed (A : Val → Option Text) (d last : Nat) (raw x : List Val) (m : Nat) (s : List (Text × Text)) : Prop where
  up : last < m
  range : InRange s last m
  from_ : ∀ p ∈ s, ∃ old, A old = some p.2
  wide : 5 ≤ raw.length
  size : x.length = raw.length
  id : x[1]? = some (.str (showNat (last + 1)))
  place : placeOf x = placeOf raw
  again : ∀ A', Agree A' s last m → ∀ b, renumElem A' d last (setPlace x b) = some (setPlace x b, m, s)

def ElemFix (A : Val → Option Text) (d : Nat) : Prop := ∀ last raw x m s, renumElem A d last raw = some (x, m, s) →
  (∀ r ∈ allElems d [.list raw], Apart r) → Fixed A d last raw x m s

/-- the loop of a panel -/
def step (f : Nat → List Val → Option (List Val × Nat × List (Text × Text))) (l : Nat) (raw : List Val) :
    Option ((Val × Text × List Val) × Nat × List (Text × Text)) :=
  (raw[1]?).bind (fun old => (f l raw).map (fun x => ((old, showNat (l + 1), x.1), x.2)))

theorem numbered_fix (A : Val → Option Text) (d : Nat) (hF : ElemFix A d) : ∀ (l : List (List Val)) (last : Nat) (res : List (Val × Text × List Val)) (L : Nat)
    (S : List (Text × Text)), numbered (step (renumElem A d)) last l = some (res, L, S) →
    (∀ raw ∈ l, ∀ r ∈ allElems d [.list raw], Apart r) →
    last ≤ L ∧ InRange S last L ∧ (∀ p ∈ S, ∃ old, A old = some p.2) ∧ Numbers res ∧
    res.map (fun x => placeOf x.2.2) = l.map placeOf ∧ (∀ x ∈ res, 5 ≤ x.2.2.length) ∧
    ∀ A', Agree A' S last L → ∀ B : Val × Text × List Val → List Val,
      numbered (step (renumElem A' d)) last (res.map (fun x => setPlace x.2.2 (B x))) = some (res.map (fun x => (.str x.2.1, x.2.1, setPlace x.2.2 (B x))), L, S)
  | [], last, res, L, S, h, _ => by
    cases h
    exact ⟨Nat.le_refl _, (fun p hp => by cases hp), (fun p hp => by cases hp), (fun p hp => by cases hp), rfl, (fun p hp => by cases hp),
      fun _ _ _ => rfl⟩
  | raw :: r, last, res, L, S, h, hA => by
    rw [numbered] at h
    simp only [Option.bind_eq_some_iff, Option.map_eq_some_iff] at h
    obtain ⟨⟨e, m, s⟩, hstep, ⟨res', L', S'⟩, hrest, heq⟩ := h
    simp only [Prod.mk.injEq] at heq
    obtain ⟨rfl, rfl, rfl⟩ := heq
    rw [step] at hstep
    simp only [Option.bind_eq_some_iff, Option.map_eq_some_iff, Prod.mk.injEq] at hstep
    obtain ⟨old, hold, ⟨x, m', s'⟩, hx, rfl, e2⟩ := hstep
    obtain ⟨rfl, rfl⟩ := e2
    have hap := hA raw List.mem_cons_self
    have hf := hF last raw x m s hx hap
    obtain ⟨i1, i2, i3, i4, i5, i6, i7⟩ := numbered_fix A d hF r m res' L' S' hrest (fun y hy => hA y (List.mem_cons_of_mem _ hy))
    have hup := hf.up
    have hlen := hf.wide
    refine ⟨by omega, range_append _ _ _ _ _ hf.range i2 (by omega) i1, ?_, ?_, ?_, ?_, ?_⟩
    · intro p hp
      rcases List.mem_append.mp hp with hp | hp
      · exact hf.from_ p hp
      · exact i3 p hp
    · intro y hy
      rcases List.mem_cons.mp hy with rfl | hy
      · exact ⟨last, rfl⟩
      · exact i4 y hy
    · rw [List.map_cons, List.map_cons, i5, hf.place]
    · intro y hy
      rcases List.mem_cons.mp hy with rfl | hy
      · show 5 ≤ x.length
        rw [hf.size]
        exact hlen
      · exact i6 y hy
    · intro A' hAg B
      have h1 := hf.again A' (agree_left A' s S' last m L' hAg i2 i1) (B (old, showNat (last + 1), x))
      have h2 := i7 A' (agree_right A' s S' last m L' hAg hf.range (by omega)) B
      have hid : (setPlace x (B (old, showNat (last + 1), x)))[1]? = some (.str (showNat (last + 1))) := by
        rw [setPlace, List.getElem?_set_ne (by rw [hf.size]; omega)]
        exact hf.id
      rw [List.map_cons, numbered, step, hid, Option.bind_some, h1]
      simp only [Option.map_some, Option.bind_some]
      rw [h2]
      rfl

theorem each_inv {α β : Type} (f : α → Option β) : ∀ (l : List α) (r : List β), each f l = some r →
    (∀ x ∈ l, (f x).isSome = true) ∧ ∀ g : α → β, (∀ x ∈ l, ∀ y, f x = some y → g x = y) → r = l.map g
  | [], r, h => by
    cases h
    exact ⟨(fun x hx => by cases hx), fun _ _ => rfl⟩
  | a :: l, r, h => by
    rw [each] at h
    simp only [Option.bind_eq_some_iff, Option.map_eq_some_iff] at h
    obtain ⟨b, hb, r', hr, rfl⟩ := h
    obtain ⟨i1, i2⟩ := each_inv f l r' hr
    refine ⟨?_, ?_⟩
    · intro x hx
      rcases List.mem_cons.mp hx with rfl | hx
      · rw [hb]; rfl
      · exact i1 x hx
    · intro g hg
      rw [List.map_cons, hg a List.mem_cons_self b hb, ← i2 g (fun x hx => hg x (List.mem_cons_of_mem _ hx))]

/-- a panel numbered twice -/
theorem panel_fix (A : Val → Option Text) (d : Nat) (hF : ElemFix A d) (last : Nat) (pr er pr2 er2 : List Val) (m : Nat) (s : List (Text × Text))
    (h : renumPanel (renumElem A d) last pr er = some (pr2, er2, m, s)) (hA : ∀ r ∈ allElems d er, Apart r) :
    last ≤ m ∧ InRange s last m ∧ (∀ p ∈ s, ∃ old, A old = some p.2) ∧
    ∀ A', Agree A' s last m → renumPanel (renumElem A' d) last pr2 er2 = some (pr2, er2, m, s) := by
  rw [renumPanel] at h
  simp only [Option.bind_eq_some_iff, Option.map_eq_some_iff, Prod.mk.injEq] at h
  obtain ⟨n, hn, ⟨res, L, S⟩, hres, new, hnew, rest, hrest, rfl, rfl, rfl, rfl⟩ := h
  simp only at hnew
  have hmem : ∀ raw ∈ byPage n (listsOf (er.drop 1)), ∀ r ∈ allElems d [.list raw], Apart r := by
    intro raw hr
    have h1 : raw ∈ listsOf (er.drop 1) := by
      rw [byPage, List.mem_flatMap] at hr
      obtain ⟨p, _, hp⟩ := hr
      exact (List.mem_filter.mp hp).1
    have h2 : Val.list raw ∈ er := List.mem_of_mem_drop ((listsOf_mem _ _).mp h1)
    exact fun r hr => hA r (allElems_sub d er raw r h2 hr)
  obtain ⟨i1, i2, i3, i4, i5, i6, i7⟩ := numbered_fix A d hF _ last res L S hres hmem
  refine ⟨i1, i2, i3, fun A' hAg => ?_⟩
  obtain ⟨e1, e2⟩ := each_inv _ _ _ hnew
  have twice : ∀ x ∈ res, ∃ y hs, newRefs (table res) x.2.1 x.2.2 = some (y, hs) ∧ newRefs (table' res) x.2.1 y = some (y, hs) ∧
      ∃ a b, placeOf x.2.2 = some a ∧ y = setPlace x.2.2 b ∧ b.map textIn = a.map textIn := by
    intro x hx
    have := e1 x hx
    rw [Option.isSome_iff_exists] at this
    obtain ⟨⟨y, hs⟩, hy⟩ := this
    obtain ⟨t1, t2⟩ := newRefs_twice res i4 x hx y hs hy
    exact ⟨y, hs, hy, t1, t2⟩
  -- the results as a function
  let g : Val × Text × List Val → List Val × List (Nat × Val) := fun x => (newRefs (table res) x.2.1 x.2.2).getD ([], [])
  let B : Val × Text × List Val → List Val := fun x => (placeOf (g x).1).getD []
  have hg : ∀ x ∈ res, newRefs (table res) x.2.1 x.2.2 = some (g x) := by
    intro x hx
    obtain ⟨y, hs, hy, _⟩ := twice x hx
    show _ = some ((newRefs (table res) x.2.1 x.2.2).getD ([], []))
    rw [hy]
    rfl
  have hgB : ∀ x ∈ res, (g x).1 = setPlace x.2.2 (B x) ∧ newRefs (table' res) x.2.1 (g x).1 = some (g x) ∧
      pageNo n (g x).1 = pageNo n x.2.2 := by
    intro x hx
    obtain ⟨y, hs, hy, h1, a, b, ha, hyb, htx⟩ := twice x hx
    have hge : g x = (y, hs) := Option.some.inj ((hg x hx).symm.trans hy)
    have hp : placeOf y = some b := by rw [hyb]; exact placeOf_set _ a b ha
    have hB : B x = b := by
      show (placeOf (g x).1).getD [] = b
      rw [hge, hp]
      rfl
    refine ⟨by rw [hge, hB]; exact hyb, by rw [hge]; exact h1, ?_⟩
    rw [hge]
    exact pageNo_same n x.2.2 y a b ha hp htx
  have hnewg : new = res.map g := e2 g (fun x hx y hy => by
    have := hg x hx
    exact Option.some.inj (this.symm.trans hy))
  have hlists : listsOf ((Val.str (showNat new.length) :: new.map (fun x => Val.list x.1)).drop 1) = res.map (fun x => (g x).1) := by
    rw [List.drop_succ_cons, List.drop_zero, listsOf_map (fun x : List Val × List (Nat × Val) => x.1) new, hnewg, List.map_map]
    rfl
  have hkey : (res.map (fun x => (g x).1)).map (pageNo n) = (byKey (pageNo n) n (listsOf (er.drop 1))).map (pageNo n) := by
    rw [List.map_map]
    have e : res.map (pageNo n ∘ fun x => (g x).1) = (res.map (fun x => placeOf x.2.2)).map
        (fun p => (p.bind (fun a => (fromEnd a 5).bind textIn)).bind (pageNum n)) := by
      rw [List.map_map]
      apply List.map_congr_left
      intro x hx
      show pageNo n (g x).1 = _
      rw [(hgB x hx).2.2, pageNo_text]
      rfl
    rw [e, i5, List.map_map]
    apply List.map_congr_left
    intro raw _
    show _ = pageNo n raw
    rw [pageNo_text]
    rfl
  have hby : byPage n (res.map (fun x => (g x).1)) = res.map (fun x => (g x).1) := byKey_fix (pageNo n) n _ _ hkey
  have hmapg : res.map (fun x => (g x).1) = res.map (fun x => setPlace x.2.2 (B x)) := List.map_congr_left (fun x hx => (hgB x hx).1)
  have hnum := i7 A' hAg B
  obtain ⟨d1, d2, d3⟩ := panelData_new pr rest hrest (new.flatMap (·.2))
  have htab : (res.map (fun x => ((Val.str x.2.1 : Val), x.2.1, setPlace x.2.2 (B x)))).map (fun x => (x.1, x.2.1)) = table' res := by
    rw [List.map_map]
    rfl
  have heach : each (fun (x : Val × Text × List Val) => newRefs (table' res) x.2.1 x.2.2)
      (res.map (fun x => ((Val.str x.2.1 : Val), x.2.1, setPlace x.2.2 (B x)))) = some new := by
    rw [each_map, hnewg]
    apply each_some
    intro x hx
    rw [← (hgB x hx).1]
    exact (hgB x hx).2.1
  rw [renumPanel, d3, hn, Option.bind_some, hlists, hby, hmapg]
  have hnum' : numbered (fun l (raw : List Val) => (raw[1]?).bind (fun old => (renumElem A' d l raw).map (fun x => ((old, showNat (l + 1), x.1), x.2))))
      last (res.map (fun x => setPlace x.2.2 (B x))) = some (res.map (fun x => (.str x.2.1, x.2.1, setPlace x.2.2 (B x))), L, S) := hnum
  rw [hnum', Option.bind_some]
  simp only
  rw [htab, heach, Option.bind_some, d1, Option.map_some, d2]

end V8.OAuto
