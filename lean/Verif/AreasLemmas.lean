import Verif.Areas
/-
Lemmas about the model of the areas of forms.
-/
namespace V8.Areas
open V8.Brace V8.Form

variable {V : Type}

def putAll (d : Dict V) (es : List (Text × V)) : Dict V := es.foldl (fun d e => put d e.1 e.2) d
def eraseAll (d : Dict V) (ks : List Text) : Dict V := fun x => if x ∈ ks then none else d x
/-- the entries with `pre` before their keys -/
def shift (pre : Text) (es : List (Text × V)) : List (Text × V) := es.map (fun e => (pre ++ e.1, e.2))
def keys (es : List (Text × V)) : List Text := es.map (·.1)

theorem putAll_append (d : Dict V) (a b : List (Text × V)) : putAll d (a ++ b) = putAll (putAll d a) b := by
  rw [putAll, List.foldl_append]; rfl

theorem eraseAll_append (d : Dict V) (a b : List Text) : eraseAll d (a ++ b) = eraseAll (eraseAll d a) b := by
  funext x
  simp only [eraseAll, List.mem_append]
  by_cases h1 : x ∈ a
  · rw [if_pos (Or.inl h1)]
    by_cases h2 : x ∈ b
    · rw [if_pos h2]
    · rw [if_neg h2, if_pos h1]
  · by_cases h2 : x ∈ b
    · rw [if_pos (Or.inr h2), if_pos h2]
    · rw [if_neg (by simp [h1, h2]), if_neg h2, if_neg h1]

theorem shift_append (pre : Text) (a b : List (Text × V)) : shift pre (a ++ b) = shift pre a ++ shift pre b := List.map_append
theorem keys_append (a b : List (Text × V)) : keys (a ++ b) = keys a ++ keys b := List.map_append
theorem keys_shift (pre : Text) (a : List (Text × V)) : keys (shift pre a) = (keys a).map (pre ++ ·) := by
  rw [keys, shift, keys, List.map_map, List.map_map]; rfl

theorem mem_keys_shift (pre k : Text) (a : List (Text × V)) : pre ++ k ∈ keys (shift pre a) ↔ k ∈ keys a := by
  rw [keys_shift, List.mem_map]
  constructor
  · rintro ⟨x, hx, h⟩
    rw [List.append_cancel_left h] at hx
    exact hx
  · exact fun h => ⟨k, h, rfl⟩

theorem putAll_not (d : Dict V) (es : List (Text × V)) (k : Text) (h : k ∉ keys es) : putAll d es k = d k := by
  induction es generalizing d with
  | nil => rfl
  | cons e r ih =>
    rw [keys, List.map_cons, List.mem_cons, not_or] at h
    show putAll (put d e.1 e.2) r k = d k
    rw [ih _ h.2, put, if_neg h.1]

theorem putAll_mem (d : Dict V) (es : List (Text × V)) (hn : (keys es).Nodup) (e : Text × V) (he : e ∈ es) : putAll d es e.1 = some e.2 := by
  induction es generalizing d with
  | nil => cases he
  | cons a r ih =>
    rw [keys, List.map_cons, List.nodup_cons] at hn
    show putAll (put d a.1 a.2) r e.1 = some e.2
    rcases List.mem_cons.mp he with he | he
    · rw [he]
      rw [putAll_not _ _ _ hn.1, put, if_pos rfl]
    · exact ih _ hn.2 he

/-- taking entries out of a dictionary and putting them back -/
theorem putAll_eraseAll (d : Dict V) (es : List (Text × V)) (hn : (keys es).Nodup) (h : ∀ e ∈ es, d e.1 = some e.2) :
    putAll (eraseAll d (keys es)) es = d := by
  funext k
  by_cases hk : k ∈ keys es
  · rw [keys, List.mem_map] at hk
    obtain ⟨e, he, rfl⟩ := hk
    rw [putAll_mem _ _ hn e he, h e he]
  · rw [putAll_not _ _ _ hk, eraseAll, if_neg hk]

/-- the entries `es` were moved from `R` (where their keys begin with `pre`) to `A`, and `g` moves them back, whatever else is in the two dictionaries -/
structure Sim (pre : Text) (es : List (Text × V)) (R A R' A' : Dict V) (g : Dict V × Dict V → Option (Dict V × Dict V)) : Prop where
  nodup : (keys es).Nodup
  here : ∀ e ∈ es, R (pre ++ e.1) = some e.2
  left : R' = eraseAll R (keys (shift pre es))
  moved : A' = putAll A es
  back : ∀ R2 A2 : Dict V, (∀ k, A2 k = R (pre ++ k) ∨ A2 k = none) → (∀ k ∈ keys es, A2 k = R (pre ++ k)) →
    g (R2, A2) = some (putAll R2 (shift pre es), eraseAll A2 (keys es))

theorem Sim.comp {pre : Text} {e1 e2 : List (Text × V)} {R A R1 A1 R2 A2 : Dict V} {g1 g2 g : Dict V × Dict V → Option (Dict V × Dict V)}
    (h1 : Sim pre e1 R A R1 A1 g1) (h2 : Sim pre e2 R1 A1 R2 A2 g2) (hg : ∀ s s', g1 s = some s' → g s = g2 s') :
    Sim pre (e1 ++ e2) R A R2 A2 g := by
  have hR1 : ∀ k, k ∉ keys e1 → R1 (pre ++ k) = R (pre ++ k) := by
    intro k hk
    rw [h1.left, eraseAll, if_neg]
    rw [mem_keys_shift]
    exact hk
  have hR1n : ∀ k, k ∈ keys e1 → R1 (pre ++ k) = none := by
    intro k hk
    rw [h1.left, eraseAll, if_pos]
    rw [mem_keys_shift]
    exact hk
  have hdis : ∀ e ∈ e2, e.1 ∉ keys e1 := by
    intro e he hk
    have := h2.here e he
    rw [hR1n _ hk] at this
    cases this
  refine ⟨?_, ?_, ?_, ?_, ?_⟩
  · rw [keys_append, List.nodup_append]
    refine ⟨h1.nodup, h2.nodup, ?_⟩
    intro a ha b hb hab
    rw [keys, List.mem_map] at hb
    obtain ⟨e, he, rfl⟩ := hb
    exact hdis e he (hab ▸ ha)
  · intro e he
    rcases List.mem_append.mp he with he | he
    · exact h1.here e he
    · rw [← hR1 _ (hdis e he)]; exact h2.here e he
  · rw [h2.left, h1.left, shift_append, keys_append, eraseAll_append]
  · rw [h2.moved, h1.moved, putAll_append]
  · intro X Y hY hYk
    have b1 := h1.back X Y hY (fun k hk => hYk k (by rw [keys_append]; exact List.mem_append_left _ hk))
    rw [hg _ _ b1, h2.back]
    · rw [shift_append, keys_append, putAll_append, eraseAll_append]
    · intro k
      by_cases hk : k ∈ keys e1
      · right; rw [eraseAll, if_pos hk]
      · rw [eraseAll, if_neg hk, hR1 k hk]; exact hY k
    · intro k hk
      have hk1 : k ∉ keys e1 := by
        rw [keys, List.mem_map] at hk
        obtain ⟨e, he, rfl⟩ := hk
        exact hdis e he
      rw [eraseAll, if_neg hk1, hR1 k hk1]
      exact hYk k (by rw [keys_append]; exact List.mem_append_right _ hk)

theorem Sim.nil (pre : Text) (R A : Dict V) (g : Dict V × Dict V → Option (Dict V × Dict V))
    (h : ∀ R2 A2 : Dict V, (∀ k, A2 k = R (pre ++ k) ∨ A2 k = none) → g (R2, A2) = some (R2, A2)) : Sim pre [] R A R A g :=
  ⟨List.nodup_nil, (fun e he => by cases he), rfl, rfl, fun R2 A2 h2 _ => h R2 A2 h2⟩

theorem Sim.one (pre k : Text) (v : V) (R A : Dict V) (g : Dict V × Dict V → Option (Dict V × Dict V)) (hv : R (pre ++ k) = some v)
    (h : ∀ R2 A2 : Dict V, A2 k = some v → g (R2, A2) = some (put R2 (pre ++ k) v, erase A2 k)) :
    Sim pre [(k, v)] R A (erase R (pre ++ k)) (put A k v) g := by
  refine ⟨List.nodup_cons.mpr ⟨List.not_mem_nil, List.nodup_nil⟩, ?_, ?_, rfl, ?_⟩
  · intro e he
    rw [List.mem_singleton] at he
    rw [he]; exact hv
  · funext x
    simp only [erase, eraseAll, shift, keys, List.map_cons, List.map_nil, List.mem_singleton]
  · intro R2 A2 _ hk
    have := hk k (List.mem_singleton.mpr rfl)
    rw [hv] at this
    rw [h R2 A2 this]
    congr 1
    refine Prod.ext rfl ?_
    funext x
    simp only [erase, eraseAll, keys, List.map_cons, List.map_nil, List.mem_singleton]

/-- `pre` stands for a path that is cut off and put before again -/
structure Pre (append pre : Text) : Prop where
  under : ∀ p, under append p = pre ++ p
  cut : ∀ p, cut append.length (pre ++ p) = p

theorem pre_of (append : Text) : Pre append (if append = [] then [] else append ++ ['/']) := by
  by_cases h : append = []
  · rw [if_pos h, h]
    exact ⟨fun p => rfl, fun p => rfl⟩
  · rw [if_neg h]
    refine ⟨?_, ?_⟩
    · intro p
      rw [under, if_neg h, List.append_assoc]; rfl
    · intro p
      rw [cut, if_neg (by intro h0; exact h (List.length_eq_zero_iff.mp h0))]
      exact List.drop_left' (by rw [List.length_append]; rfl)

theorem names_sim (append pre : Text) (hp : Pre append pre) (rel : Text) : ∀ (ns : List Text) (R A : Dict V),
    ∃ es, Sim pre es R A (popNames append.length (pre ++ rel) ns (R, A)).1 (popNames append.length (pre ++ rel) ns (R, A)).2
      (fun s => some (addNames append rel rel ns s))
  | [], R, A => ⟨[], Sim.nil pre R A _ (fun R2 A2 _ => rfl)⟩
  | n :: r, R, A => by
    have e1 : (pre ++ rel) ++ '/' :: n = pre ++ (rel ++ '/' :: n) := List.append_assoc _ _ _
    have e2 : cut append.length (pre ++ rel) ++ '/' :: n = rel ++ '/' :: n := by rw [hp.cut]
    cases h : R (pre ++ (rel ++ '/' :: n)) with
    | none =>
      obtain ⟨es, hs⟩ := names_sim append pre hp rel r R A
      refine ⟨es, ?_⟩
      rw [popNames, e1, h]
      have : [] ++ es = es := rfl
      rw [← this]
      refine Sim.comp (Sim.nil pre R A (fun s => if s.2 (rel ++ '/' :: n) = none then some s else none) ?_) hs ?_
      · intro R2 A2 hA
        rcases hA (rel ++ '/' :: n) with hA | hA
        · rw [h] at hA
          simp only [hA, if_true]
        · simp only [hA, if_true]
      · intro s s' hss
        by_cases hn : s.2 (rel ++ '/' :: n) = none
        · rw [if_pos hn] at hss
          cases hss
          obtain ⟨s1, s2⟩ := s
          simp only at hn
          rw [addNames, hn]
        · rw [if_neg hn] at hss; cases hss
    | some v =>
      obtain ⟨es, hs⟩ := names_sim append pre hp rel r (erase R (pre ++ (rel ++ '/' :: n))) (put A (rel ++ '/' :: n) v)
      refine ⟨[(rel ++ '/' :: n, v)] ++ es, ?_⟩
      rw [popNames, e1, h, e2]
      refine Sim.comp (Sim.one pre _ v R A (fun s => (s.2 (rel ++ '/' :: n)).map (fun v => (put s.1 (pre ++ (rel ++ '/' :: n)) v, erase s.2 (rel ++ '/' :: n)))) h ?_) hs ?_
      · intro R2 A2 hA
        simp only [hA, Option.map_some]
      · intro s s' hss
        obtain ⟨s1, s2⟩ := s
        simp only at hss
        cases hv : s2 (rel ++ '/' :: n) with
        | none => rw [hv] at hss; cases hss
        | some w =>
          rw [hv] at hss
          cases hss
          rw [addNames, hv]
          simp only
          rw [hp.under]

open Classical in
theorem pages_sim (names : V → List Text) (append pre : Text) (hp : Pre append pre) (rel : Text) (R A : Dict V) :
    ∃ es, Sim pre es R A (popPages names append.length (pre ++ rel) (R, A)).1 (popPages names append.length (pre ++ rel) (R, A)).2
      (fun s => some (addPages names append rel rel s)) := by
  have e1 : (pre ++ rel) ++ pagesKey = pre ++ (rel ++ pagesKey) := List.append_assoc _ _ _
  cases h : R (pre ++ (rel ++ pagesKey)) with
  | none =>
    refine ⟨[], ?_⟩
    rw [popPages]
    simp only
    rw [e1, h]
    refine Sim.nil pre R A _ ?_
    intro R2 A2 hA
    have : A2 (rel ++ pagesKey) = none := by
      rcases hA (rel ++ pagesKey) with hA | hA
      · rw [hA, h]
      · exact hA
    rw [addPages]
    simp only
    rw [this]
  | some v =>
    obtain ⟨es, hs⟩ := names_sim append pre hp rel (names v) (erase R (pre ++ (rel ++ pagesKey))) (put A (rel ++ pagesKey) v)
    refine ⟨[(rel ++ pagesKey, v)] ++ es, ?_⟩
    rw [popPages]
    simp only
    rw [e1, h]
    simp only
    rw [hp.cut]
    refine Sim.comp (Sim.one pre _ v R A (fun s => if s.2 (rel ++ pagesKey) = some v then
      some (put s.1 (pre ++ (rel ++ pagesKey)) v, erase s.2 (rel ++ pagesKey)) else none) h ?_) hs ?_
    · intro R2 A2 hA
      simp only [hA, if_true]
    · intro s s' hss
      by_cases hv : s.2 (rel ++ pagesKey) = some v
      · rw [if_pos hv] at hss
        cases hss
        rw [addPages, hv]
        simp only
        rw [hp.under]
      · rw [if_neg hv] at hss; cases hss

/-! ### paths -/

/-- what page and name add to a path -/
def suf (page name : Text) : Text := (if page = [] then [] else '/' :: page) ++ (if name = [] then [] else '/' :: name)

theorem oldPath_suf (path page name : Text) (h : path ≠ []) : oldPath path page name = path ++ suf page name := by
  rw [oldPath, suf]
  by_cases hp : page = []
  · by_cases hn : name = []
    · simp [h, hp, hn, oldPath.joined]
    · simp [h, hp, hn, oldPath.joined]
  · by_cases hn : name = []
    · simp [h, hp, hn, oldPath.joined]
    · simp [h, hp, hn, oldPath.joined]

theorem oldPath_name (path page name : Text) (hn : name ≠ []) : oldPath path page name = under (oldPath path page []) name := by
  by_cases h : path = []
  · by_cases hp : page = []
    · simp [h, hp, hn, oldPath, oldPath.joined, under]
    · simp [h, hp, hn, oldPath, oldPath.joined, under]
  · by_cases hp : page = []
    · simp [h, hp, hn, oldPath, oldPath.joined, under]
    · simp [h, hp, hn, oldPath, oldPath.joined, under]

theorem oldPath_pre (pre path page name : Text) (h : path ≠ []) : oldPath (pre ++ path) page name = pre ++ oldPath path page name := by
  rw [oldPath_suf _ _ _ h, oldPath_suf _ _ _ (by simp [h]), List.append_assoc]

theorem oldPath_ne (path page name : Text) (h : path ≠ []) : oldPath path page name ≠ [] := by
  rw [oldPath_suf _ _ _ h]
  simp [h]

/-! ### the elements of an area -/

open Classical in
theorem loop_sim (names : V → List Text) (append pre : Text) (hp : Pre append pre) : ∀ (tree : List Node) (rel : Text) (R A R' A' : Dict V),
    rel ≠ [] → popLoop names append.length tree (pre ++ rel) (R, A) = some (R', A') →
    ∃ es, Sim pre es R A R' A' (addLoop names append tree rel)
  | [], rel, R, A, R', A', hr, h => by
    rw [popLoop] at h
    cases h
    refine ⟨[], Sim.nil pre R A _ ?_⟩
    intro R2 A2 _
    rw [addLoop]
  | .apart _ _ _ :: _, rel, R, A, R', A', hr, h => by
    rw [popLoop] at h
    cases h
  | .mk name page info none :: r, rel, R, A, R', A', hr, h => by
    rw [popLoop, oldPath_pre _ _ _ _ hr] at h
    have hne := oldPath_ne rel page name hr
    generalize hk : oldPath rel page name = k at h hne
    cases hv : R (pre ++ k) with
    | none => rw [hv] at h; cases h
    | some v =>
      rw [hv] at h
      simp only at h
      rw [hp.cut] at h
      have h1 := Sim.one pre k v R A (fun s => if s.2 k = some v then some (put s.1 (pre ++ k) v, erase s.2 k) else none) hv
        (fun R2 A2 hA => by simp only [hA, if_true])
      obtain ⟨es, hs⟩ := loop_sim names append pre hp r rel _ _ R' A' hr h
      refine ⟨_, h1.comp hs ?_⟩
      intro s s' hss
      obtain ⟨s1, s2⟩ := s
      by_cases hx : s2 k = some v
      · simp only [hx, if_true] at hss
        cases hss
        rw [addLoop, hk, hx]
        simp only
        rw [hp.under]
      · simp only [hx, if_false] at hss; cases hss
  | .mk name page info (some []) :: r, rel, R, A, R', A', hr, h => by
    rw [popLoop, oldPath_pre _ _ _ _ hr] at h
    have hne := oldPath_ne rel page name hr
    generalize hk : oldPath rel page name = k at h hne
    cases hv : R (pre ++ k) with
    | none => rw [hv] at h; cases h
    | some v =>
      rw [hv] at h
      simp only at h
      rw [hp.cut] at h
      have h1 := Sim.one pre k v R A (fun s => if s.2 k = some v then some (put s.1 (pre ++ k) v, erase s.2 k) else none) hv
        (fun R2 A2 hA => by simp only [hA, if_true])
      obtain ⟨es, hs⟩ := loop_sim names append pre hp r rel _ _ R' A' hr h
      refine ⟨_, h1.comp hs ?_⟩
      intro s s' hss
      obtain ⟨s1, s2⟩ := s
      by_cases hx : s2 k = some v
      · simp only [hx, if_true] at hss
        cases hss
        rw [addLoop, hk, hx]
        simp only
        rw [hp.under]
      · simp only [hx, if_false] at hss; cases hss
  | .mk name page info (some (c :: cs)) :: r, rel, R, A, R', A', hr, h => by
    rw [popLoop, oldPath_pre _ _ _ _ hr] at h
    have hne := oldPath_ne rel page name hr
    generalize hk : oldPath rel page name = k at h hne
    cases hv : R (pre ++ k) with
    | none => rw [hv] at h; cases h
    | some v =>
      rw [hv] at h
      simp only at h
      rw [hp.cut] at h
      have h1 := Sim.one pre k v R A (fun s => if s.2 k = some v then some (put s.1 (pre ++ k) v, erase s.2 k) else none) hv
        (fun R2 A2 hA => by simp only [hA, if_true])
      cases hc : popLoop names append.length (c :: cs) (pre ++ k) (erase R (pre ++ k), put A k v) with
      | none => rw [hc] at h; cases h
      | some q =>
        obtain ⟨R1, A1⟩ := q
        rw [hc] at h
        simp only at h
        obtain ⟨e2, hs2⟩ := loop_sim names append pre hp (c :: cs) k _ _ R1 A1 hne hc
        obtain ⟨e3, hs3⟩ := pages_sim names append pre hp k R1 A1
        obtain ⟨e4, hs4⟩ := loop_sim names append pre hp r rel _ _ R' A' hr h
        refine ⟨_, h1.comp (hs2.comp (hs3.comp hs4 (g := fun s => addLoop names append r rel (addPages names append k k s)) ?_)
          (g := fun s => (addLoop names append (c :: cs) k s).bind (fun s => addLoop names append r rel (addPages names append k k s))) ?_) ?_⟩
        · intro s s' hss
          cases hss
          rfl
        · intro s s' hss
          simp only [hss, Option.bind_some]
        · intro s s' hss
          obtain ⟨s1, s2⟩ := s
          by_cases hx : s2 k = some v
          · simp only [hx, if_true] at hss
            cases hss
            rw [addLoop, hk, hx]
            simp only
            rw [hp.under]
            cases addLoop names append (c :: cs) k (put s1 (pre ++ k) v, erase s2 k) <;> rfl
          · simp only [hx, if_false] at hss; cases hss
termination_by tree => sizeOf tree

theorem area_sim (names : V → List Text) (tree : List Node) (append name : Text) (hn : name ≠ []) (R A R' A' : Dict V)
    (h : popArea names tree (under append name) append (R, A) = some (R', A')) :
    ∃ pre es, Pre append pre ∧ Sim pre es R A R' A' (addArea names tree name append true) := by
  have hp := pre_of append
  generalize (if append = [] then [] else append ++ ['/']) = pre at hp
  rw [popArea, hp.under] at h
  cases hl : popLoop names append.length tree (pre ++ name) (R, A) with
  | none => rw [hl] at h; cases h
  | some q =>
    obtain ⟨R1, A1⟩ := q
    rw [hl] at h
    obtain ⟨e1, h1⟩ := loop_sim names append pre hp tree name R A R1 A1 hn hl
    obtain ⟨e2, h2⟩ := pages_sim names append pre hp name R1 A1
    have h' : popPages names append.length (pre ++ name) (R1, A1) = (R', A') := Option.some.inj h
    rw [h'] at h2
    refine ⟨pre, _, hp, h1.comp h2 ?_⟩
    intro s s' hss
    rw [addArea]
    simp only [if_true]
    rw [hss]
    rfl

/-! ### merging a file -/

theorem joinMoves {R R1 R2 : Dict V} {E1 E2 : List (Text × V)} (m1 : (keys E1).Nodup) (m2 : ∀ e ∈ E1, R e.1 = some e.2)
    (m3 : R1 = eraseAll R (keys E1)) (n1 : (keys E2).Nodup) (n2 : ∀ e ∈ E2, R1 e.1 = some e.2) (n3 : R2 = eraseAll R1 (keys E2)) :
    (keys (E1 ++ E2)).Nodup ∧ (∀ e ∈ E1 ++ E2, R e.1 = some e.2) ∧ R2 = eraseAll R (keys (E1 ++ E2)) := by
  have hdis : ∀ e ∈ E2, e.1 ∉ keys E1 := by
    intro e he hk
    have := n2 e he
    rw [m3, eraseAll, if_pos hk] at this
    cases this
  refine ⟨?_, ?_, ?_⟩
  · rw [keys_append, List.nodup_append]
    refine ⟨m1, n1, ?_⟩
    intro a ha b hb hab
    rw [keys, List.mem_map] at hb
    obtain ⟨e, he, rfl⟩ := hb
    exact hdis e he (hab ▸ ha)
  · intro e he
    rcases List.mem_append.mp he with he | he
    · exact m2 e he
    · have := n2 e he
      rw [m3, eraseAll, if_neg (hdis e he)] at this
      exact this
  · rw [n3, m3, keys_append, eraseAll_append]

/-- the paths of the elements of a tree -/
def elemPaths : List Node → Text → List Text
  | [], _ => []
  | .apart name page _ :: r, path => oldPath path page name :: elemPaths r path
  | .mk name page _ none :: r, path => oldPath path page name :: elemPaths r path
  | .mk name page _ (some l) :: r, path => oldPath path page name :: (elemPaths l (oldPath path page name) ++ elemPaths r path)
termination_by l => sizeOf l

theorem joinErase (e1 e2 : List (Text × V)) (A A1 A2 : Dict V) (m1 : (keys e1).Nodup) (m2 : ∀ e ∈ e1, A e.1 = some e.2)
    (m3 : A1 = eraseAll A (keys e1)) (n1 : (keys e2).Nodup) (n2 : ∀ e ∈ e2, A1 e.1 = some e.2) (n3 : A2 = eraseAll A1 (keys e2)) :
    (keys (e1 ++ e2)).Nodup ∧ (∀ e ∈ e1 ++ e2, A e.1 = some e.2) ∧ A2 = eraseAll A (keys (e1 ++ e2)) := joinMoves m1 m2 m3 n1 n2 n3

theorem erase_one (A : Dict V) (k : Text) (v : V) : erase A k = eraseAll A (keys [(k, v)]) := by
  funext x
  simp only [erase, eraseAll, keys, List.map_cons, List.map_nil, List.mem_singleton]

theorem add_step (names : V → List Text) (append pre : Text) (hp : Pre append pre) (name page info : Text) (child : Option (List Node)) (r : List Node)
    (rel : Text) (R R' A A' : Dict V) (hc : child = none ∨ child = some []) (h : addLoop names append (.mk name page info child :: r) rel (R, A) = some (R', A'))
    (ih : ∀ R R' A A' : Dict V, addLoop names append r rel (R, A) = some (R', A') →
      ∃ es : List (Text × V), (keys es).Nodup ∧ (∀ e ∈ es, A e.1 = some e.2) ∧ R' = putAll R (shift pre es) ∧ A' = eraseAll A (keys es) ∧
      ∀ p ∈ elemPaths r rel, p ∈ keys es) :
    ∃ es : List (Text × V), (keys es).Nodup ∧ (∀ e ∈ es, A e.1 = some e.2) ∧ R' = putAll R (shift pre es) ∧ A' = eraseAll A (keys es) ∧
      ∀ p ∈ oldPath rel page name :: elemPaths r rel, p ∈ keys es := by
  rw [addLoop.eq_def] at h
  simp only at h
  generalize oldPath rel page name = k at h ⊢
  cases hv : A k with
  | none => rw [hv] at h; cases h
  | some v =>
    rw [hv] at h
    have h2 : addLoop names append r rel (put R (under append k) v, erase A k) = some (R', A') := by
      rcases hc with hc | hc <;> rw [hc] at h <;> exact h
    obtain ⟨es, h3, h4, h5, h6, h7⟩ := ih _ _ _ _ h2
    have hj := joinErase [(k, v)] es A (erase A k) A' (List.nodup_cons.mpr ⟨List.not_mem_nil, List.nodup_nil⟩)
      (by intro e he; rw [List.mem_singleton] at he; rw [he]; exact hv) (erase_one A k v) h3 h4 h6
    refine ⟨[(k, v)] ++ es, hj.1, hj.2.1, ?_, hj.2.2, ?_⟩
    · rw [h5, hp.under, shift_append, putAll_append]
      rfl
    · intro p hpm
      rw [keys_append]
      rcases List.mem_cons.mp hpm with hpm | hpm
      · rw [hpm]; exact List.mem_append_left _ (List.mem_singleton.mpr rfl)
      · exact List.mem_append_right _ (h7 p hpm)

theorem add_names (append pre : Text) (hp : Pre append pre) (rel : Text) : ∀ (ns : List Text) (R A : Dict V),
    ∃ es : List (Text × V), (keys es).Nodup ∧ (∀ e ∈ es, A e.1 = some e.2) ∧ (addNames append rel rel ns (R, A)).1 = putAll R (shift pre es) ∧
      (addNames append rel rel ns (R, A)).2 = eraseAll A (keys es)
  | [], R, A => ⟨[], List.nodup_nil, (fun e he => by cases he), rfl, rfl⟩
  | n :: r, R, A => by
    cases h : A (rel ++ '/' :: n) with
    | none =>
      obtain ⟨es, h1, h2, h3, h4⟩ := add_names append pre hp rel r R A
      refine ⟨es, h1, h2, ?_, ?_⟩
      · rw [addNames, h]; exact h3
      · rw [addNames, h]; exact h4
    | some v =>
      obtain ⟨es, h1, h2, h3, h4⟩ := add_names append pre hp rel r (put R (under append (rel ++ '/' :: n)) v) (erase A (rel ++ '/' :: n))
      have hj := joinErase [(rel ++ '/' :: n, v)] es A (erase A (rel ++ '/' :: n)) (eraseAll (erase A (rel ++ '/' :: n)) (keys es)) (List.nodup_cons.mpr ⟨List.not_mem_nil, List.nodup_nil⟩)
        (by intro e he; rw [List.mem_singleton] at he; rw [he]; exact h) (erase_one A _ v) h1 h2 rfl
      refine ⟨[(rel ++ '/' :: n, v)] ++ es, hj.1, hj.2.1, ?_, ?_⟩
      · rw [addNames, h]
        simp only
        rw [h3, hp.under, shift_append, putAll_append]
        rfl
      · rw [addNames, h]
        simp only
        rw [h4]; exact hj.2.2

theorem add_pages (names : V → List Text) (append pre : Text) (hp : Pre append pre) (rel : Text) (R A : Dict V) :
    ∃ es : List (Text × V), (keys es).Nodup ∧ (∀ e ∈ es, A e.1 = some e.2) ∧ (addPages names append rel rel (R, A)).1 = putAll R (shift pre es) ∧
      (addPages names append rel rel (R, A)).2 = eraseAll A (keys es) := by
  cases h : A (rel ++ pagesKey) with
  | none =>
    have e : addPages names append rel rel (R, A) = (R, A) := by rw [addPages]; simp only; rw [h]
    rw [e]
    exact ⟨[], List.nodup_nil, (fun e he => by cases he), rfl, rfl⟩
  | some v =>
    obtain ⟨es, h1, h2, h3, h4⟩ := add_names append pre hp rel (names v) (put R (under append (rel ++ pagesKey)) v) (erase A (rel ++ pagesKey))
    have hj := joinErase [(rel ++ pagesKey, v)] es A (erase A (rel ++ pagesKey)) (eraseAll (erase A (rel ++ pagesKey)) (keys es)) (List.nodup_cons.mpr ⟨List.not_mem_nil, List.nodup_nil⟩)
        (by intro e he; rw [List.mem_singleton] at he; rw [he]; exact h) (erase_one A _ v) h1 h2 rfl
    have e : addPages names append rel rel (R, A) = addNames append rel rel (names v) (put R (under append (rel ++ pagesKey)) v, erase A (rel ++ pagesKey)) := by
      rw [addPages]; simp only; rw [h]
    refine ⟨[(rel ++ pagesKey, v)] ++ es, hj.1, hj.2.1, ?_, ?_⟩
    · rw [e, h3, hp.under, shift_append, putAll_append]
      rfl
    · rw [e, h4]; exact hj.2.2

theorem add_loop (names : V → List Text) (append pre : Text) (hp : Pre append pre) : ∀ (tree : List Node) (rel : Text) (R R' A A' : Dict V),
    addLoop names append tree rel (R, A) = some (R', A') →
    ∃ es : List (Text × V), (keys es).Nodup ∧ (∀ e ∈ es, A e.1 = some e.2) ∧ R' = putAll R (shift pre es) ∧ A' = eraseAll A (keys es) ∧
      ∀ p ∈ elemPaths tree rel, p ∈ keys es
  | [], rel, R, R', A, A', h => by
    rw [addLoop] at h
    cases h
    exact ⟨[], List.nodup_nil, (fun e he => by cases he), rfl, rfl, (fun p hp => by rw [elemPaths] at hp; exact hp)⟩
  | .apart _ _ _ :: _, rel, R, R', A, A', h => by
    rw [addLoop] at h
    cases h
  | .mk name page info none :: r, rel, R, R', A, A', h => by
    rw [elemPaths]
    exact add_step names append pre hp name page info none r rel R R' A A' (Or.inl rfl) h
      (fun R R' A A' h => add_loop names append pre hp r rel R R' A A' h)
  | .mk name page info (some []) :: r, rel, R, R', A, A', h => by
    rw [elemPaths, elemPaths, List.nil_append]
    exact add_step names append pre hp name page info (some []) r rel R R' A A' (Or.inr rfl) h
      (fun R R' A A' h => add_loop names append pre hp r rel R R' A A' h)
  | .mk name page info (some (c :: cs)) :: r, rel, R, R', A, A', h => by
    rw [addLoop.eq_def] at h
    simp only at h
    rw [elemPaths]
    generalize oldPath rel page name = k at h ⊢
    cases hv : A k with
    | none => rw [hv] at h; cases h
    | some v =>
      rw [hv] at h
      simp only at h
      cases hc : addLoop names append (c :: cs) k (put R (under append k) v, erase A k) with
      | none => rw [hc] at h; cases h
      | some q =>
        obtain ⟨R1, A1⟩ := q
        rw [hc] at h
        simp only at h
        obtain ⟨e2, b1, b2, b3, b4, b5⟩ := add_loop names append pre hp (c :: cs) k _ R1 _ A1 hc
        obtain ⟨e3, c1, c2, c3, c4⟩ := add_pages names append pre hp k R1 A1
        obtain ⟨e4, d1, d2, d3, d4, d5⟩ := add_loop names append pre hp r rel (addPages names append k k (R1, A1)).1 R' (addPages names append k k (R1, A1)).2 A' h
        have j1 := joinErase [(k, v)] e2 A (erase A k) A1 (List.nodup_cons.mpr ⟨List.not_mem_nil, List.nodup_nil⟩)
          (by intro e he; rw [List.mem_singleton] at he; rw [he]; exact hv) (erase_one A k v) b1 b2 b4
        have j2 := joinErase ([(k, v)] ++ e2) e3 A A1 _ j1.1 j1.2.1 j1.2.2 c1 c2 c4
        have j3 := joinErase ([(k, v)] ++ e2 ++ e3) e4 A _ A' j2.1 j2.2.1 j2.2.2 d1 d2 d4
        refine ⟨[(k, v)] ++ e2 ++ e3 ++ e4, j3.1, j3.2.1, ?_, j3.2.2, ?_⟩
        · rw [d3, c3, b3, hp.under, shift_append, shift_append, shift_append, putAll_append, putAll_append, putAll_append]
          rfl
        · intro p hpm
          rw [keys_append, keys_append, keys_append]
          rcases List.mem_cons.mp hpm with hpm | hpm
          · rw [hpm]
            exact List.mem_append_left _ (List.mem_append_left _ (List.mem_append_left _ (List.mem_singleton.mpr rfl)))
          · rcases List.mem_append.mp hpm with hpm | hpm
            · exact List.mem_append_left _ (List.mem_append_left _ (List.mem_append_right _ (b5 p hpm)))
            · exact List.mem_append_right _ (d5 p hpm)
termination_by tree => sizeOf tree

/-! ### the whole form -/

/-- the areas of a form, in order: type (`true` is `include_`), name, whether the group has a list of nested elements.  Areas within areas do not count. -/
def areaList : List Node → List (Bool × Text × Bool)
  | [] => []
  | .apart _ _ _ :: r => areaList r
  | .mk name _ _ child :: r => match areaType name with
    | some t => (t, name.drop 8, child.isSome) :: areaList r
    | none => match child with
      | some (c :: cs) => areaList (c :: cs) ++ areaList r
      | _ => areaList r
termination_by l => sizeOf l

theorem areaType_true (name : Text) (h : areaType name = some true) : name = include' ++ name.drop 8 ∧ name ≠ [] := by
  rw [areaType] at h
  by_cases h1 : name.take 8 = include'
  · refine ⟨by rw [← h1, List.take_append_drop], ?_⟩
    intro h2
    rw [h2] at h1
    cases h1
  · rw [if_neg h1] at h
    by_cases h2 : name.take 8 = includr
    · rw [if_pos h2] at h; cases h
    · rw [if_neg h2] at h; cases h

/-- what the areas of a form need: all of them are `include_` and have lists of elements -/
def Plain (tree : List Node) : Prop := ∀ a ∈ areaList tree, a.1 = true ∧ a.2.2 = true

theorem areaList_area (name page info : Text) (child : Option (List Node)) (r : List Node) (t : Bool) (ht : areaType name = some t) :
    areaList (.mk name page info child :: r) = (t, name.drop 8, child.isSome) :: areaList r := by
  rw [areaList.eq_def]; simp only; rw [ht]
theorem areaList_leaf (name page info : Text) (child : Option (List Node)) (r : List Node) (ht : areaType name = none)
    (hc : child = none ∨ child = some []) : areaList (.mk name page info child :: r) = areaList r := by
  rw [areaList.eq_def]; simp only; rw [ht]
  rcases hc with hc | hc <;> rw [hc]
theorem areaList_group (name page info : Text) (c : Node) (cs r : List Node) (ht : areaType name = none) :
    areaList (.mk name page info (some (c :: cs)) :: r) = areaList (c :: cs) ++ areaList r := by
  rw [areaList.eq_def]; simp only; rw [ht]

theorem areasOut_area (names : V → List Text) (name page info : Text) (child : Option (List Node)) (r : List Node) (path : Text) (R : Dict V) (t : Bool)
    (ht : areaType name = some t) : areasOut names (.mk name page info child :: r) path R =
      (popArea names (child.getD []) (oldPath path page (include' ++ name.drop 8)) (oldPath path page []) (R, fun _ => none)).bind (fun s =>
        (areasOut names r path s.1).bind (fun q =>
          some (.apart name page info :: q.1, q.2.1, if t then (name.drop 8, ⟨child.getD [], s.2, []⟩) :: q.2.2 else q.2.2))) := by
  rw [areasOut.eq_def]; simp only; rw [ht]; simp only
  cases popArea names (child.getD []) (oldPath path page (include' ++ name.drop 8)) (oldPath path page []) (R, fun _ => none) with
  | none => rfl
  | some s => cases h : areasOut names r path s.1 <;> simp only [h, Option.bind_some, Option.bind_none]
theorem areasOut_leaf (names : V → List Text) (name page info : Text) (child : Option (List Node)) (r : List Node) (path : Text) (R : Dict V)
    (ht : areaType name = none) (hc : child = none ∨ child = some []) : areasOut names (.mk name page info child :: r) path R =
      (areasOut names r path R).bind (fun q => some (.mk name page info child :: q.1, q.2.1, q.2.2)) := by
  rw [areasOut.eq_def]; simp only; rw [ht]; simp only
  rcases hc with hc | hc <;> rw [hc] <;> cases areasOut names r path R <;> rfl
theorem areasOut_group (names : V → List Text) (name page info : Text) (c : Node) (cs r : List Node) (path : Text) (R : Dict V)
    (ht : areaType name = none) : areasOut names (.mk name page info (some (c :: cs)) :: r) path R =
      (areasOut names (c :: cs) (oldPath path page name) R).bind (fun s => (areasOut names r path s.2.1).bind (fun q =>
        some (.mk name page info (some s.1) :: q.1, q.2.1, s.2.2 ++ q.2.2))) := by
  rw [areasOut.eq_def]; simp only; rw [ht]; simp only
  cases areasOut names (c :: cs) (oldPath path page name) R with
  | none => rfl
  | some s => cases h : areasOut names r path s.2.1 <;> simp only [h, Option.bind_some, Option.bind_none]

theorem areasIn_apart (names : V → List Text) (read : Text → Option (Elems V)) (name page info : Text) (r : List Node) (path : Text) (R : Dict V) (t : Bool)
    (ht : areaType name = some t) : areasIn names read (.apart name page info :: r) path R =
      (read (name.drop 8)).bind (fun e => (addArea names e.tree name (oldPath path page []) t (R, e.data)).bind (fun s =>
        (areasIn names read r path s.1).bind (fun q => some (.mk name page info (some e.tree) :: q.1, q.2)))) := by
  rw [areasIn.eq_def]; simp only; rw [ht]; simp only
  cases read (name.drop 8) with
  | none => rfl
  | some e =>
    simp only [Option.bind_some]
    cases addArea names e.tree name (oldPath path page []) t (R, e.data) with
    | none => rfl
    | some s => cases h : areasIn names read r path s.1 <;> simp only [h, Option.bind_some, Option.bind_none]
theorem areasIn_leaf (names : V → List Text) (read : Text → Option (Elems V)) (name page info : Text) (child : Option (List Node)) (r : List Node)
    (path : Text) (R : Dict V) (ht : areaType name = none) (hc : child = none ∨ child = some []) :
    areasIn names read (.mk name page info child :: r) path R =
      (areasIn names read r path R).bind (fun q => some (.mk name page info child :: q.1, q.2)) := by
  rw [areasIn.eq_def]; simp only; rw [ht]; simp only
  rcases hc with hc | hc <;> rw [hc] <;> cases areasIn names read r path R <;> rfl
theorem areasIn_group (names : V → List Text) (read : Text → Option (Elems V)) (name page info : Text) (c : Node) (cs r : List Node)
    (path : Text) (R : Dict V) (ht : areaType name = none) :
    areasIn names read (.mk name page info (some (c :: cs)) :: r) path R =
      (areasIn names read (c :: cs) (oldPath path page name) R).bind (fun s => (areasIn names read r path s.2).bind (fun q =>
        some (.mk name page info (some s.1) :: q.1, q.2))) := by
  rw [areasIn.eq_def]; simp only; rw [ht]; simp only
  cases areasIn names read (c :: cs) (oldPath path page name) R with
  | none => rfl
  | some s => cases h : areasIn names read r path s.2 <;> simp only [h, Option.bind_some, Option.bind_none]

theorem areaName_step (names : V → List Text) (name page info : Text) (child r : List Node) (path : Text) (R R' : Dict V)
    (tree' : List Node) (areas : List (Text × Elems V)) (h : areasOut names (.mk name page info (some child) :: r) path R = some (tree', R', areas))
    (hP : Plain (.mk name page info (some child) :: r)) (t : Bool) (ht : areaType name = some t)
    (ih : ∀ (R R' : Dict V) (tree' : List Node) (areas : List (Text × Elems V)), areasOut names r path R = some (tree', R', areas) → Plain r →
      areas.map (·.1) = (areaList r).map (·.2.1)) :
    areas.map (·.1) = (areaList (.mk name page info (some child) :: r)).map (·.2.1) := by
  rw [Plain, areaList_area _ _ _ _ _ t ht] at hP
  have ht1 : t = true := (hP _ List.mem_cons_self).1
  rw [ht1] at ht
  rw [areasOut_area _ _ _ _ _ _ _ _ true ht] at h
  rw [areaList_area _ _ _ _ _ true ht]
  generalize popArea names ((some child).getD []) (oldPath path page (include' ++ name.drop 8)) (oldPath path page []) (R, fun _ => none) = x at h
  cases x with
  | none => cases h
  | some s =>
    rw [Option.bind_some] at h
    cases h1 : areasOut names r path s.1 with
    | none => rw [h1] at h; cases h
    | some q =>
      rw [h1] at h
      cases h
      rw [List.map_cons, ← ih _ _ _ _ h1 (fun a ha => hP a (List.mem_cons_of_mem _ ha))]
      rfl

/-- the areas that are written are those of the tree -/
theorem areaNames_eq (names : V → List Text) : ∀ (tree : List Node) (path : Text) (R R' : Dict V) (tree' : List Node) (areas : List (Text × Elems V)),
    areasOut names tree path R = some (tree', R', areas) → Plain tree → areas.map (·.1) = (areaList tree).map (·.2.1)
  | [], path, R, R', tree', areas, h, hP => by
    rw [areasOut] at h
    cases h
    rw [areaList]; rfl
  | .apart _ _ _ :: _, path, R, R', tree', areas, h, hP => by
    rw [areasOut] at h
    cases h
  | .mk name page info none :: r, path, R, R', tree', areas, h, hP => by
    cases ht : areaType name with
    | some t =>
      rw [Plain, areaList_area _ _ _ _ _ t ht] at hP
      cases (hP _ List.mem_cons_self).2
    | none =>
      rw [Plain, areaList_leaf _ _ _ _ _ ht (Or.inl rfl)] at hP
      rw [areasOut_leaf _ _ _ _ _ _ _ _ ht (Or.inl rfl)] at h
      cases h1 : areasOut names r path R with
      | none => rw [h1] at h; cases h
      | some q =>
        rw [h1] at h
        cases h
        rw [areaList_leaf _ _ _ _ _ ht (Or.inl rfl)]
        exact areaNames_eq names r path R _ _ _ h1 hP
  | .mk name page info (some []) :: r, path, R, R', tree', areas, h, hP => by
    cases ht : areaType name with
    | some t => exact areaName_step names name page info [] r path R R' tree' areas h hP t ht (fun R R' tree' areas h hP => areaNames_eq names r path R R' tree' areas h hP)
    | none =>
      rw [Plain, areaList_leaf _ _ _ _ _ ht (Or.inr rfl)] at hP
      rw [areasOut_leaf _ _ _ _ _ _ _ _ ht (Or.inr rfl)] at h
      cases h1 : areasOut names r path R with
      | none => rw [h1] at h; cases h
      | some q =>
        rw [h1] at h
        cases h
        rw [areaList_leaf _ _ _ _ _ ht (Or.inr rfl)]
        exact areaNames_eq names r path R _ _ _ h1 hP
  | .mk name page info (some (c :: cs)) :: r, path, R, R', tree', areas, h, hP => by
    cases ht : areaType name with
    | some t => exact areaName_step names name page info (c :: cs) r path R R' tree' areas h hP t ht (fun R R' tree' areas h hP => areaNames_eq names r path R R' tree' areas h hP)
    | none =>
      rw [Plain, areaList_group _ _ _ _ _ _ ht] at hP
      rw [areasOut_group _ _ _ _ _ _ _ _ _ ht] at h
      cases h0 : areasOut names (c :: cs) (oldPath path page name) R with
      | none => rw [h0] at h; cases h
      | some s =>
        rw [h0, Option.bind_some] at h
        cases h1 : areasOut names r path s.2.1 with
        | none => rw [h1] at h; cases h
        | some q =>
          rw [h1] at h
          cases h
          rw [areaList_group _ _ _ _ _ _ ht, List.map_append, List.map_append,
            areaNames_eq names (c :: cs) _ R _ _ _ h0 (fun a ha => hP a (List.mem_append_left _ ha)),
            areaNames_eq names r path _ _ _ _ h1 (fun a ha => hP a (List.mem_append_right _ ha))]
termination_by tree => sizeOf tree

/-- one area -/
theorem area_step (names : V → List Text) (read : Text → Option (Elems V)) (name page info : Text) (child r : List Node) (path : Text) (R R' : Dict V)
    (tree' : List Node) (areas : List (Text × Elems V)) (h : areasOut names (.mk name page info (some child) :: r) path R = some (tree', R', areas))
    (hP : Plain (.mk name page info (some child) :: r)) (hr : ∀ a ∈ areas, read a.1 = some a.2) (t : Bool) (ht : areaType name = some t)
    (ih : ∀ (R R' : Dict V) (tree' : List Node) (areas : List (Text × Elems V)), areasOut names r path R = some (tree', R', areas) → Plain r →
      (∀ a ∈ areas, read a.1 = some a.2) →
      ∃ E : List (Text × V), (keys E).Nodup ∧ (∀ e ∈ E, R e.1 = some e.2) ∧ R' = eraseAll R (keys E) ∧
      (∀ R2, areasIn names read tree' path R2 = some (r, putAll R2 E)) ∧ areas.map (·.1) = (areaList r).map (·.2.1)) :
    ∃ E : List (Text × V), (keys E).Nodup ∧ (∀ e ∈ E, R e.1 = some e.2) ∧ R' = eraseAll R (keys E) ∧
      (∀ R2, areasIn names read tree' path R2 = some (.mk name page info (some child) :: r, putAll R2 E)) ∧
      areas.map (·.1) = (areaList (.mk name page info (some child) :: r)).map (·.2.1) := by
  rw [Plain, areaList_area _ _ _ _ _ t ht] at hP
  have ht1 : t = true := (hP _ List.mem_cons_self).1
  rw [ht1] at ht
  obtain ⟨hname, hne⟩ := areaType_true name ht
  rw [areasOut_area _ _ _ _ _ _ _ _ true ht, Option.getD_some, ← hname, oldPath_name _ _ _ hne] at h
  cases hp : popArea names child (under (oldPath path page []) name) (oldPath path page []) (R, fun _ => none) with
  | none => rw [hp] at h; cases h
  | some q =>
    obtain ⟨R1, A1⟩ := q
    rw [hp, Option.bind_some] at h
    simp only at h
    cases h1 : areasOut names r path R1 with
    | none => rw [h1] at h; cases h
    | some q =>
      obtain ⟨r', R2, as⟩ := q
      rw [h1, Option.bind_some] at h
      simp only [if_true] at h
      cases h
      obtain ⟨pre, es, hpre, hs⟩ := area_sim names child (oldPath path page []) name hne R _ R1 A1 hp
      obtain ⟨E, n1, n2, n3, n4, n5⟩ := ih R1 R' r' as h1 (fun a ha => hP a (List.mem_cons_of_mem _ ha)) (fun a ha => hr a (List.mem_cons_of_mem _ ha))
      have s1 : (keys (shift pre es)).Nodup := by
        rw [keys_shift]
        exact List.Pairwise.map _ (fun a b hab h => hab (List.append_cancel_left h)) hs.nodup
      have s2 : ∀ e ∈ shift pre es, R e.1 = some e.2 := by
        intro e he
        rw [shift, List.mem_map] at he
        obtain ⟨x, hx, rfl⟩ := he
        exact hs.here x hx
      have hj := joinMoves s1 s2 hs.left n1 n2 n3
      have hread := hr _ List.mem_cons_self
      simp only at hread
      refine ⟨shift pre es ++ E, hj.1, hj.2.1, hj.2.2, ?_, ?_⟩
      · intro X
        have hb := hs.back X A1 (by
            intro k
            rw [hs.moved]
            by_cases hk : k ∈ keys es
            · left
              rw [keys, List.mem_map] at hk
              obtain ⟨e, he, rfl⟩ := hk
              rw [putAll_mem _ _ hs.nodup e he, hs.here e he]
            · right
              rw [putAll_not _ _ _ hk])
          (by
            intro k hk
            rw [hs.moved]
            rw [keys, List.mem_map] at hk
            obtain ⟨e, he, rfl⟩ := hk
            rw [putAll_mem _ _ hs.nodup e he, hs.here e he])
        rw [areasIn_apart _ _ _ _ _ _ _ _ true ht, hread]
        simp only [Option.bind_some]
        rw [hb]
        simp only [Option.bind_some]
        rw [n4, putAll_append]
        rfl
      · rw [List.map_cons, n5, areaList_area _ _ _ _ _ true ht]
        rfl

theorem areas_rt (names : V → List Text) (read : Text → Option (Elems V)) : ∀ (tree : List Node) (path : Text) (R R' : Dict V) (tree' : List Node)
    (areas : List (Text × Elems V)), areasOut names tree path R = some (tree', R', areas) → Plain tree →
    (∀ a ∈ areas, read a.1 = some a.2) →
    ∃ E : List (Text × V), (keys E).Nodup ∧ (∀ e ∈ E, R e.1 = some e.2) ∧ R' = eraseAll R (keys E) ∧
      (∀ R2, areasIn names read tree' path R2 = some (tree, putAll R2 E)) ∧ areas.map (·.1) = (areaList tree).map (·.2.1)
  | [], path, R, R', tree', areas, h, hP, hr => by
    rw [areasOut] at h
    cases h
    refine ⟨[], List.nodup_nil, (fun e he => by cases he), rfl, ?_, ?_⟩
    · intro R2; rw [areasIn]; rfl
    · rw [areaList]; rfl
  | .apart _ _ _ :: _, path, R, R', tree', areas, h, hP, hr => by
    rw [areasOut] at h
    cases h
  | .mk name page info none :: r, path, R, R', tree', areas, h, hP, hr => by
    cases ht : areaType name with
    | some t =>
      rw [Plain, areaList_area _ _ _ _ _ t ht] at hP
      cases (hP _ List.mem_cons_self).2
    | none =>
      rw [Plain, areaList_leaf _ _ _ _ _ ht (Or.inl rfl)] at hP
      rw [areasOut_leaf _ _ _ _ _ _ _ _ ht (Or.inl rfl)] at h
      cases h1 : areasOut names r path R with
      | none => rw [h1] at h; cases h
      | some q =>
        obtain ⟨r', R1, as⟩ := q
        rw [h1] at h
        cases h
        obtain ⟨E, n1, n2, n3, n4, n5⟩ := areas_rt names read r path R _ r' _ h1 hP hr
        refine ⟨E, n1, n2, n3, ?_, ?_⟩
        · intro R2
          rw [areasIn_leaf _ _ _ _ _ _ _ _ _ ht (Or.inl rfl), n4]
          rfl
        · rw [n5, areaList_leaf _ _ _ _ _ ht (Or.inl rfl)]
  | .mk name page info (some []) :: r, path, R, R', tree', areas, h, hP, hr => by
    cases ht : areaType name with
    | none =>
      rw [Plain, areaList_leaf _ _ _ _ _ ht (Or.inr rfl)] at hP
      rw [areasOut_leaf _ _ _ _ _ _ _ _ ht (Or.inr rfl)] at h
      cases h1 : areasOut names r path R with
      | none => rw [h1] at h; cases h
      | some q =>
        obtain ⟨r', R1, as⟩ := q
        rw [h1] at h
        cases h
        obtain ⟨E, n1, n2, n3, n4, n5⟩ := areas_rt names read r path R _ r' _ h1 hP hr
        refine ⟨E, n1, n2, n3, ?_, ?_⟩
        · intro R2
          rw [areasIn_leaf _ _ _ _ _ _ _ _ _ ht (Or.inr rfl), n4]
          rfl
        · rw [n5, areaList_leaf _ _ _ _ _ ht (Or.inr rfl)]
    | some t =>
      exact area_step names read name page info [] r path R R' tree' areas h hP hr t ht
        (fun R R' tree' areas h hP hr => areas_rt names read r path R R' tree' areas h hP hr)
  | .mk name page info (some (c :: cs)) :: r, path, R, R', tree', areas, h, hP, hr => by
    cases ht : areaType name with
    | none =>
      rw [Plain, areaList_group _ _ _ _ _ _ ht] at hP
      rw [areasOut_group _ _ _ _ _ _ _ _ _ ht] at h
      cases h0 : areasOut names (c :: cs) (oldPath path page name) R with
      | none => rw [h0] at h; cases h
      | some q =>
        obtain ⟨l', R1, as1⟩ := q
        rw [h0, Option.bind_some] at h
        simp only at h
        cases h1 : areasOut names r path R1 with
        | none => rw [h1] at h; cases h
        | some q =>
          obtain ⟨r', R2, as2⟩ := q
          rw [h1] at h
          cases h
          obtain ⟨E1, m1, m2, m3, m4, m5⟩ := areas_rt names read (c :: cs) (oldPath path page name) R R1 l' as1 h0
            (fun a ha => hP a (List.mem_append_left _ ha)) (fun a ha => hr a (List.mem_append_left _ ha))
          obtain ⟨E2, n1, n2, n3, n4, n5⟩ := areas_rt names read r path R1 _ r' as2 h1
            (fun a ha => hP a (List.mem_append_right _ ha)) (fun a ha => hr a (List.mem_append_right _ ha))
          have hj := joinMoves m1 m2 m3 n1 n2 n3
          refine ⟨E1 ++ E2, hj.1, hj.2.1, hj.2.2, ?_, ?_⟩
          · intro X
            match l', m4 with
            | [], m4 =>
              have := m4 X
              rw [areasIn] at this
              cases this
            | d :: ds, m4 =>
              rw [areasIn_group _ _ _ _ _ _ _ _ _ _ ht, m4, Option.bind_some]
              simp only
              rw [n4, putAll_append]
              rfl
          · rw [List.map_append, m5, n5, areaList_group _ _ _ _ _ _ ht, List.map_append]
    | some t =>
      exact area_step names read name page info (c :: cs) r path R R' tree' areas h hP hr t ht
        (fun R R' tree' areas h hP hr => areas_rt names read r path R R' tree' areas h hP hr)
termination_by tree => sizeOf tree

end V8.Areas
