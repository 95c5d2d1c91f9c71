import Verif.Props.RootSpec
/-
C82: a folder of an object is added to the sources or taken away: the lists of the header.
-/
namespace V8.Folders
open V8.Brace V8.Enc V8.Nested V8.Product
open V8.Root (putLists Apart slotsAt setAt_comm)

/-! ### specification -/

/-- the list of objects of one type, as it stands in a header: the identifier of the type, the number of objects, the objects -/
def listOf (u : Text) (items : List Val) : Val := .list (.str u :: .str (V8.Dec.showNat items.length) :: items)

/-- The header `h'` is the header `h`, but in one list, of the type `u`, one object more is listed: `x`.  The list is not at the top of the header but at least three levels down. -/
def OneMore (u : Text) (x : Val) (h h' : Val) : Prop :=
  ∃ q a b, 3 ≤ q.length ∧ getAt h q = some (listOf u (a ++ b)) ∧ setAt h q (listOf u (a ++ x :: b)) = some h'

/-! ### sorting -/

theorem insertBy_split {α : Type} (key : α → Text) (x : α) : ∀ l : List α, ∃ a b, l = a ++ b ∧ insertBy key x l = a ++ x :: b
  | [] => ⟨[], [], rfl, rfl⟩
  | y :: r => by
    rw [insertBy]
    by_cases h : textLe (key x) (key y) = true
    · exact ⟨[], y :: r, rfl, if_pos h⟩
    · obtain ⟨a, b, h1, h2⟩ := insertBy_split key x r
      exact ⟨y :: a, b, by rw [h1]; rfl, by rw [if_neg h, h2]; rfl⟩

theorem sortBy_grown {α : Type} (key : α → Text) {x : α} {l l' : List α} (h : l'.Perm (x :: l)) (hn : (l'.map key).Nodup) :
    ∃ a b, sortBy key l = a ++ b ∧ sortBy key l' = a ++ x :: b := by
  rw [sortBy_congr key h hn, sortBy]
  exact insertBy_split key x _

/-! ### one list -/

theorem ofType_other {x : Entry} {es es' : List Entry} (hp : es'.Perm (x :: es)) {ty : Text} (h : ty ≠ x.ty) : (ofType ty es').Perm (ofType ty es) := by
  have := hp.filter (fun e => decide (e.ty = ty))
  unfold ofType
  rwa [List.filter_cons_of_neg (by simpa using fun hh => h hh.symm)] at this

theorem ofType_this {x : Entry} {es es' : List Entry} (hp : es'.Perm (x :: es)) : (ofType x.ty es').Perm (x :: ofType x.ty es) := by
  have := hp.filter (fun e => decide (e.ty = x.ty))
  unfold ofType
  rwa [List.filter_cons_of_pos (by simp)] at this

theorem names_ofType {es : List Entry} (hn : (es.map (fun e => (e.ty, e.nm))).Nodup) (ty : Text) : ((ofType ty es).map Entry.nm).Nodup := by
  have h1 : ((ofType ty es).map (fun e => (e.ty, e.nm))).Nodup := hn.sublist ((List.filter_sublist (l := es) (p := fun e => decide (e.ty = ty))).map _)
  unfold List.Nodup at h1 ⊢
  rw [List.pairwise_map] at h1 ⊢
  refine h1.imp_of_mem (fun {a b} ha hb hab he => hab ?_)
  have h2 : a.ty = ty := by simpa using (List.mem_filter.mp ha).2
  have h3 : b.ty = ty := by simpa using (List.mem_filter.mp hb).2
  rw [h2, h3, he]

theorem slot_other {E : Env} {x : Entry} {es es' : List Entry} (hp : es'.Perm (x :: es)) (hn : (es'.map (fun e => (e.ty, e.nm))).Nodup) {ty : Text} (h : ty ≠ x.ty) :
    fillSlot E es' (.str ty) = fillSlot E es (.str ty) := by
  rw [fillSlot, fillSlot, sortBy_congr Entry.nm (ofType_other hp h) (names_ofType hn ty)]

/-- what the lists of objects become, before and after -/
theorem slot_this {E : Env} {x : Entry} {es es' : List Entry} (hp : es'.Perm (x :: es)) (hn : (es'.map (fun e => (e.ty, e.nm))).Nodup) {u : Text} (hu : E.uuidOf x.ty = some u) :
    ∃ a b, fillSlot E es (.str x.ty) = some (listOf u (a ++ b)) ∧ fillSlot E es' (.str x.ty) = some (listOf u (a ++ x.data :: b)) := by
  obtain ⟨a, b, h1, h2⟩ := sortBy_grown Entry.nm (ofType_this hp) (names_ofType hn _)
  refine ⟨a.map Entry.data, b.map Entry.data, ?_, ?_⟩
  · rw [fillSlot, hu, h1]
    simp only [listOf, List.map_append]
  · rw [fillSlot, hu, h2]
    simp only [listOf, List.map_append, List.map_cons]

/-- the lists that are filled the same way with and without the object -/
def Alike (E : Env) (x : Entry) (es es' : List Entry) (s : Val) : Prop := s = .str x.ty ∨ fillSlot E es' s = fillSlot E es s

theorem slots_alike {E : Env} {es es' : List Entry} : ∀ (n : Nat) (slots : List Val), (∀ s ∈ slots, fillSlot E es' s = fillSlot E es s) →
    fillSlots E es' n slots = fillSlots E es n slots
  | 0, _, _ => rfl
  | _ + 1, [], _ => rfl
  | n + 1, s :: r, h => by
    rw [fillSlots, fillSlots, h s List.mem_cons_self, slots_alike n r (fun s hs => h s (List.mem_cons_of_mem _ hs))]

theorem slots_grown {E : Env} {x : Entry} {es es' : List Entry} {S S' : Val} (h1 : fillSlot E es (.str x.ty) = some S) (h2 : fillSlot E es' (.str x.ty) = some S') :
    ∀ (n k : Nat) (slots : List Val), k < n → slots[k]? = some (.str x.ty) → (∀ i s, i ≠ k → slots[i]? = some s → fillSlot E es' s = fillSlot E es s) →
      fillSlots E es' n slots = (fillSlots E es n slots).map (fun r => r.set k S') ∧ ∀ r, fillSlots E es n slots = some r → r[k]? = some S
  | 0, k, _, hk, _, _ => absurd hk (by omega)
  | n + 1, k, [], _, h, _ => by simp at h
  | n + 1, 0, s :: r, _, h, ho => by
    have hs : s = .str x.ty := by simpa using h
    subst hs
    have hr := slots_alike (E := E) (es := es) (es' := es') n r (fun s hs => by
      obtain ⟨i, hi⟩ := List.getElem?_of_mem hs
      exact ho (i + 1) s (by omega) (by simpa using hi))
    rw [fillSlots, fillSlots, h1, h2, hr]
    constructor
    · simp only [Option.bind_some, Option.map_map]
      rfl
    · intro q hq
      simp only [Option.bind_some, Option.map_eq_some_iff] at hq
      obtain ⟨q', _, rfl⟩ := hq
      rfl
  | n + 1, k + 1, s :: r, hk, h, ho => by
    have hs := ho 0 s (by omega) rfl
    obtain ⟨i1, i2⟩ := slots_grown h1 h2 n k r (by omega) (by simpa using h) (fun i s hi hs => ho (i + 1) s (by omega) (by simpa using hs))
    rw [fillSlots, fillSlots, hs, i1]
    cases hf : fillSlot E es s with
    | none => exact ⟨rfl, fun _ hq => by cases hq⟩
    | some s' =>
      constructor
      · simp only [Option.bind_some, Option.map_map]
        rfl
      · intro q hq
        simp only [Option.bind_some, Option.map_eq_some_iff] at hq
        obtain ⟨q', hq', rfl⟩ := hq
        simpa using i2 q' hq'

/-! ### the lists of a header -/

theorem fill_alike {E : Env} {es es' : List Entry} {inc : List Val} (h : ∀ s ∈ inc.drop 3, fillSlot E es' s = fillSlot E es s) : fillInclude E es' inc = fillInclude E es inc := by
  match inc, h with
  | [], _ => rfl
  | [_], _ => rfl
  | [_, _], _ => rfl
  | a :: b :: .none :: _, _ => rfl
  | a :: b :: .list _ :: _, _ => rfl
  | a :: b :: .str n :: slots, h =>
    rw [fillInclude, fillInclude]
    cases hn : V8.Dec.parseInt n with
    | none => rfl
    | some c =>
      simp only
      rw [slots_alike c.toNat slots (fun s hs => h s hs)]

theorem slotsAt_some {v : Val} {p : List Nat} {inc : List Val} (h : getAt v p = some (.list inc)) : ∀ s ∈ slotsAt v p, s ∈ inc.drop 3 := by
  unfold slotsAt
  rw [h]
  match inc with
  | [] => simp
  | [_] => simp
  | [_, _] => simp
  | a :: b :: c :: r => simp

theorem slotsAt_drop {v : Val} {p : List Nat} {inc : List Val} (h : getAt v p = some (.list inc)) : slotsAt v p = inc.drop 3 := by
  unfold slotsAt
  rw [h]
  match inc with
  | [] => rfl
  | [_] => rfl
  | [_, _] => rfl
  | a :: b :: c :: r => rfl

theorem slots_frame {v v' w : Val} {p q : List Nat} (h : setAt v p w = some v') (ha : Apart p q) : slotsAt v' q = slotsAt v q := by
  unfold slotsAt
  rw [getAt_frame _ _ _ _ _ h ha.1 ha.2]

theorem put_alike {E : Env} {es es' : List Entry} : ∀ (ps : List (List Nat)) (v : Val), ps.Pairwise Apart → (∀ p ∈ ps, ∀ s ∈ slotsAt v p, fillSlot E es' s = fillSlot E es s) →
    putLists E es' ps v = putLists E es ps v
  | [], _, _, _ => rfl
  | p :: ps, v, hpw, h => by
    obtain ⟨hp1, hp2⟩ := List.pairwise_cons.mp hpw
    rw [putLists, putLists]
    cases hg : getAt v p with
    | none => rfl
    | some w =>
      cases w with
      | none => rfl
      | str _ => rfl
      | list inc =>
        simp only
        rw [fill_alike (fun s hs => h p List.mem_cons_self s (by rw [slotsAt_drop hg]; exact hs))]
        cases hf : fillInclude E es inc with
        | none => rfl
        | some inc' =>
          simp only [Option.bind_some]
          cases hs : setAt v p (.list inc') with
          | none => rfl
          | some v' =>
            simp only [Option.bind_some]
            exact put_alike ps v' hp2 (fun q hq => by rw [slots_frame hs (hp1 q hq)]; exact h q (List.mem_cons_of_mem _ hq))

theorem set_append : ∀ (p q : List Nat) (v a b w : Val), getAt v p = some a → setAt a q w = some b → setAt v (p ++ q) w = setAt v p b
  | [], q, v, a, b, w, h1, h2 => by
    have : v = a := by cases v <;> simpa [getAt] using h1
    subst this
    rw [List.nil_append, h2]
    cases v <;> rfl
  | i :: p, q, .none, a, b, w, h1, _ => by simp [getAt] at h1
  | i :: p, q, .str _, a, b, w, h1, _ => by simp [getAt] at h1
  | i :: p, q, .list l, a, b, w, h1, h2 => by
    rw [getAt] at h1
    rw [List.cons_append, setAt, setAt]
    cases hi : l[i]? with
    | none => simp [hi] at h1
    | some x =>
      rw [hi] at h1
      simp only at h1 ⊢
      rw [set_append p q x a b w h1 h2]

theorem apart_longer {p q r : List Nat} (h : Apart p q) : Apart p (q ++ r) := by
  refine ⟨fun hh => ?_, fun hh => h.2 ((List.prefix_append q r).trans hh)⟩
  rcases List.prefix_or_prefix_of_prefix hh (List.prefix_append q r) with h1 | h1
  · exact h.1 h1
  · exact h.2 h1

theorem put_frame {E : Env} {es : List Entry} {q : List Nat} {w : Val} : ∀ (ps : List (List Nat)) (v u : Val), (∀ p ∈ ps, Apart p q) → setAt v q w = some u →
    putLists E es ps u = (putLists E es ps v).bind (fun t => setAt t q w)
  | [], v, u, _, hs => by
    rw [putLists, putLists, Option.bind_some, hs]
  | p :: ps, v, u, ha, hs => by
    have hp := ha p List.mem_cons_self
    rw [putLists, putLists, getAt_frame _ _ _ _ _ hs hp.2 hp.1]
    cases hg : getAt v p with
    | none => rfl
    | some a =>
      cases a with
      | none => rfl
      | str _ => rfl
      | list inc =>
        simp only
        cases hf : fillInclude E es inc with
        | none => rfl
        | some inc' =>
          simp only [Option.bind_some]
          obtain ⟨u', h2⟩ := V8.Product.setAt_some p u (.list inc) (.list inc') (by rw [getAt_frame _ _ _ _ _ hs hp.2 hp.1, hg])
          obtain ⟨v', h1, h3⟩ := setAt_comm q p v w (.list inc') u u' hp.symm hs h2
          rw [h1, h2, Option.bind_some, Option.bind_some]
          exact put_frame ps v' u' (fun p hp => ha p (List.mem_cons_of_mem _ hp)) h3

/-- the places of the lists, when one object more is delivered: `p` is the one with the list of its type -/
structure Here (E : Env) (x : Entry) (es es' : List Entry) (v : Val) (ps : List (List Nat)) (p : List Nat) (k : Nat) : Prop where
  apart : ps.Pairwise Apart
  mem : p ∈ ps
  deep : 2 ≤ p.length
  slot : (slotsAt v p)[k]? = some (.str x.ty)
  count : ∃ n c, getAt v (p ++ [2]) = some (.str n) ∧ V8.Dec.parseInt n = some c ∧ k < c.toNat
  others : ∀ q ∈ ps, ∀ i s, (q ≠ p ∨ i ≠ k) → (slotsAt v q)[i]? = some s → fillSlot E es' s = fillSlot E es s

theorem set_drop (inc : List Val) (k : Nat) (S : Val) : ∀ a b c r, inc = a :: b :: c :: r → inc.set (k + 3) S = a :: b :: c :: r.set k S := by
  rintro a b c r rfl
  rfl

theorem put_grown {E : Env} {x : Entry} {es es' : List Entry} {S S' : Val} (h1 : fillSlot E es (.str x.ty) = some S) (h2 : fillSlot E es' (.str x.ty) = some S') :
    ∀ (ps : List (List Nat)) (v : Val) (p : List Nat) (k : Nat), Here E x es es' v ps p k →
      putLists E es' ps v = (putLists E es ps v).bind (fun w => setAt w (p ++ [k + 3]) S') ∧ ∀ w, putLists E es ps v = some w → getAt w (p ++ [k + 3]) = some S
  | [], _, _, _, h => absurd h.mem (by simp)
  | q :: ps, v, p, k, h => by
    obtain ⟨hp1, hp2⟩ := List.pairwise_cons.mp h.apart
    rw [putLists, putLists]
    cases hg : getAt v q with
    | none => exact ⟨rfl, fun _ hw => by cases hw⟩
    | some w =>
      cases w with
      | none => exact ⟨rfl, fun _ hw => by cases hw⟩
      | str _ => exact ⟨rfl, fun _ hw => by cases hw⟩
      | list inc =>
        simp only
        by_cases hq : q = p
        · subst hq
          have hslots := slotsAt_drop hg
          obtain ⟨n, c, hn, hc, hk⟩ := h.count
          rw [getAt_append, hg, Option.bind_some] at hn
          have hsl := h.slot
          obtain ⟨a, b, slots, rfl⟩ : ∃ a b slots, inc = a :: b :: .str n :: slots := by
            match inc, hn with
            | [], hn => cases hn
            | [_], hn => cases hn
            | [_, _], hn => cases hn
            | a :: b :: z :: r, hn =>
              refine ⟨a, b, r, ?_⟩
              have : z = .str n := by simpa [getAt] using hn
              rw [this]
          have hss : slotsAt v q = slots := hslots
          have ho := h.others q List.mem_cons_self
          rw [hss] at hsl ho
          obtain ⟨g1, g2⟩ := slots_grown h1 h2 c.toNat k slots hk hsl (fun i s hi hs => ho i s (.inr hi) hs)
          rw [fillInclude, fillInclude, hc]
          simp only
          rw [g1]
          cases hf : fillSlots E es c.toNat slots with
          | none => exact ⟨rfl, fun _ hw => by cases hw⟩
          | some r =>
            have hrk := g2 r hf
            simp only [Option.map_some, Option.bind_some]
            cases hs : setAt v q (.list (a :: b :: .str n :: r)) with
            | none =>
              obtain ⟨v', hv'⟩ := V8.Product.setAt_some q v _ (.list (a :: b :: .str n :: r)) hg
              rw [hv'] at hs; cases hs
            | some v' =>
              simp only [Option.bind_some]
              have hset : setAt v' (q ++ [k + 3]) S' = setAt v q (.list (a :: b :: .str n :: r.set k S')) := by
                rw [← setAt_setAt _ _ _ _ (.list (a :: b :: .str n :: r.set k S')) hs]
                refine set_append q [k + 3] v' _ _ S' (getAt_setAt _ _ _ _ hs) ?_
                rw [setAt]
                have : (a :: b :: .str n :: r)[k + 3]? = some S := by simpa using hrk
                rw [this]
                rfl
              obtain ⟨v'', hv''⟩ := V8.Product.setAt_some q v _ (.list (a :: b :: .str n :: r.set k S')) hg
              rw [hv''] at hset ⊢
              simp only [Option.bind_some]
              have hfr : ∀ p' ∈ ps, Apart p' (q ++ [k + 3]) := fun p' hp' => apart_longer (hp1 p' hp').symm
              have hal : putLists E es' ps v'' = putLists E es ps v'' := put_alike ps v'' hp2 (fun p' hp' s hs' => by
                rw [slots_frame hv'' (hp1 p' hp')] at hs'
                obtain ⟨i, hi⟩ := List.getElem?_of_mem hs'
                refine h.others p' (List.mem_cons_of_mem _ hp') i s (.inl ?_) hi
                rintro rfl
                exact (hp1 _ hp').1 List.prefix_rfl)
              refine ⟨?_, ?_⟩
              · rw [hal, put_frame ps v' v'' hfr hset]
              · intro w hw
                have hback : ∃ z, setAt v' (q ++ [k + 3]) S = some z ∧ z = v' := by
                  refine ⟨v', setAt_getAt _ _ _ ?_, rfl⟩
                  rw [getAt_append, getAt_setAt _ _ _ _ hs]
                  simp [getAt, hrk]
                obtain ⟨z, hz, rfl⟩ := hback
                have := put_frame (E := E) (es := es) ps z z hfr hz
                rw [hw, Option.bind_some] at this
                exact getAt_setAt _ _ _ _ this.symm
        · have hm : p ∈ ps := (List.mem_cons.mp h.mem).resolve_left (Ne.symm hq)
          have hfi : fillInclude E es' inc = fillInclude E es inc := fill_alike (fun s hs => by
            rw [← slotsAt_drop hg] at hs
            obtain ⟨i, hi⟩ := List.getElem?_of_mem hs
            exact h.others q List.mem_cons_self i s (.inl hq) hi)
          rw [hfi]
          cases hf : fillInclude E es inc with
          | none => exact ⟨rfl, fun _ hw => by cases hw⟩
          | some inc' =>
            simp only [Option.bind_some]
            cases hs : setAt v q (.list inc') with
            | none => exact ⟨rfl, fun _ hw => by cases hw⟩
            | some v' =>
              simp only [Option.bind_some]
              refine put_grown h1 h2 ps v' p k ⟨hp2, hm, h.deep, ?_, ?_, ?_⟩
              · rw [slots_frame hs (hp1 p hm)]; exact h.slot
              · obtain ⟨n, c, hn, hc⟩ := h.count
                refine ⟨n, c, ?_, hc⟩
                rw [getAt_frame _ _ _ _ _ hs (apart_longer (hp1 p hm)).1 (apart_longer (hp1 p hm)).2, hn]
              · intro q' hq' i s hi hs'
                rw [slots_frame hs (hp1 q' hq')] at hs'
                exact h.others q' (List.mem_cons_of_mem _ hq') i s hi hs'

/-- **C82, the lists.**  One object more is delivered, of a type whose list stands in the header under the name of the type (as extraction with auto_include leaves it): both headers can be filled or
none of them, and they differ in that the object is in the list of its type, and the number there. -/
theorem lists_grown {E : Env} {x : Entry} {es es' : List Entry} {v : Val} {ps : List (List Nat)} {p : List Nat} {k : Nat} {u : Text} (hp : es'.Perm (x :: es))
    (hn : (es'.map (fun e => (e.ty, e.nm))).Nodup) (hu : E.uuidOf x.ty = some u) (h : Here E x es es' v ps p k) :
    (∃ w w', putLists E es ps v = some w ∧ putLists E es' ps v = some w' ∧ OneMore u x.data w w') ∨ (putLists E es ps v = none ∧ putLists E es' ps v = none) := by
  obtain ⟨a, b, s1, s2⟩ := slot_this hp hn hu
  obtain ⟨e1, e2⟩ := put_grown s1 s2 ps v p k h
  cases hw : putLists E es ps v with
  | none => rw [hw] at e1; exact .inr ⟨rfl, e1⟩
  | some w =>
    rw [hw, Option.bind_some] at e1
    have hg := e2 w hw
    obtain ⟨w', hw'⟩ := V8.Product.setAt_some _ w _ (listOf u (a ++ x.data :: b)) hg
    refine .inl ⟨w, w', rfl, by rw [e1, hw'], p ++ [k + 3], a, b, ?_, hg, hw'⟩
    rw [List.length_append, List.length_singleton]
    have := h.deep
    omega

end V8.Folders
