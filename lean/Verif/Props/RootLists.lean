import Verif.Root
import Verif.Props.Tree
import Verif.Props.Product
/-
The lists of a product: what extraction takes out of them is put back.
-/
namespace V8.Root
open V8.Brace V8.Header V8.Store V8.Tree
open V8.Nested hiding Env Handler
open V8.Object hiding Cls
open V8.Product (getAt setAt getAt_setAt setAt_getAt setAt_some getAt_frame setAt_setAt)

/-- two places none of which lies in the other -/
def Apart (p q : List Nat) : Prop := ¬ p <+: q ∧ ¬ q <+: p

theorem Apart.symm {p q : List Nat} (h : Apart p q) : Apart q p := ⟨h.2, h.1⟩

theorem apart_cons {i : Nat} {p q : List Nat} (h : Apart (i :: p) (i :: q)) : Apart p q :=
  ⟨fun hh => h.1 (List.cons_prefix_cons.mpr ⟨rfl, hh⟩), fun hh => h.2 (List.cons_prefix_cons.mpr ⟨rfl, hh⟩)⟩

/-- assignments at two such places commute -/
theorem setAt_comm : ∀ (p q : List Nat) (v a b v1 v2 : Val), Apart p q → setAt v p a = some v1 → setAt v1 q b = some v2 →
    ∃ v3, setAt v q b = some v3 ∧ setAt v3 p a = some v2
  | [], q, v, a, b, v1, v2, h, _, _ => absurd List.nil_prefix h.1
  | i :: p, [], v, a, b, v1, v2, h, _, _ => absurd List.nil_prefix h.2
  | i :: p, j :: q, .none, a, b, v1, v2, _, h1, _ => by simp [setAt] at h1
  | i :: p, j :: q, .str _, a, b, v1, v2, _, h1, _ => by simp [setAt] at h1
  | i :: p, j :: q, .list l, a, b, v1, v2, h, h1, h2 => by
    rw [setAt] at h1
    cases hi : l[i]? with
    | none => rw [hi] at h1; cases h1
    | some x =>
      rw [hi] at h1
      simp only [Option.map_eq_some_iff] at h1
      obtain ⟨x1, hx1, rfl⟩ := h1
      have hil : i < l.length := by rw [List.getElem?_eq_some_iff] at hi; exact hi.1
      rw [setAt] at h2
      by_cases hij : i = j
      · subst hij
        rw [List.getElem?_set_self hil] at h2
        simp only [Option.map_eq_some_iff] at h2
        obtain ⟨x2, hx2, rfl⟩ := h2
        obtain ⟨x3, e1, e2⟩ := setAt_comm p q x a b x1 x2 (apart_cons h) hx1 hx2
        refine ⟨.list (l.set i x3), ?_, ?_⟩
        · rw [setAt, hi]
          simp only [e1, Option.map_some]
        · rw [setAt, List.getElem?_set_self hil]
          simp only [e2, Option.map_some, List.set_set]
      · rw [List.getElem?_set_ne hij] at h2
        cases hj : l[j]? with
        | none => rw [hj] at h2; cases h2
        | some y =>
          rw [hj] at h2
          simp only [Option.map_eq_some_iff] at h2
          obtain ⟨y2, hy2, rfl⟩ := h2
          refine ⟨.list (l.set j y2), ?_, ?_⟩
          · rw [setAt, hj]
            simp only [hy2, Option.map_some]
          · rw [setAt, List.getElem?_set_ne (Ne.symm hij), hi]
            simp only [hx1, Option.map_some]
            rw [List.set_comm _ _ hij]

theorem getAt_append : ∀ (p q : List Nat) (v : Val), getAt v (p ++ q) = (getAt v p).bind (fun w => getAt w q)
  | [], q, v => by
    cases v <;> rfl
  | i :: p, q, .none => rfl
  | i :: p, q, .str _ => rfl
  | i :: p, q, .list l => by
    rw [List.cons_append, getAt, getAt]
    cases l[i]? with
    | none => rfl
    | some x => exact getAt_append p q x

/-- a place that taking the lists apart leaves alone: it lies elsewhere, or it is in one of the first three values of a list -/
def Calm (p q : List Nat) : Prop := Apart p q ∨ ∃ k r, k < 3 ∧ q = p ++ k :: r

theorem decodeFrom_some {E : Nested.Env} {auto : Bool} {made : List Text} {inc inc' : List Val} {os : List Obj}
    (h : decodeFrom E auto made inc = some (inc', os)) :
    ∃ a b n c slots slots', inc = a :: b :: .str n :: slots ∧ V8.Dec.parseInt n = some c ∧
      decodeSlots E auto made c.toNat slots = some (slots', os) ∧ inc' = a :: b :: .str n :: slots' := by
  match inc, h with
  | a :: b :: .str n :: slots, h =>
    simp only [decodeFrom] at h
    cases hn : V8.Dec.parseInt n with
    | none => simp [hn] at h
    | some c =>
      simp only [hn, Option.map_eq_some_iff, Prod.mk.injEq] at h
      obtain ⟨p, hp, h1, h2⟩ := h
      exact ⟨a, b, n, c, slots, p.1, rfl, hn, by rw [hp, ← h2], h1.symm⟩
  | [], h => simp [decodeFrom] at h
  | [_], h => simp [decodeFrom] at h
  | [_, _], h => simp [decodeFrom] at h
  | _ :: _ :: .none :: _, h => simp [decodeFrom] at h
  | _ :: _ :: .list _ :: _, h => simp [decodeFrom] at h

/-- one step of `takeLists` -/
theorem takeLists_cons {E : Nested.Env} {auto : Bool} {made : List Text} {p : List Nat} {ps : List (List Nat)} {v v' : Val} {os : List Obj}
    (h : takeLists E auto made (p :: ps) v = some (v', os)) :
    ∃ inc inc' os1 v1 os2, getAt v p = some (.list inc) ∧ decodeFrom E auto made inc = some (inc', os1) ∧ setAt v p (.list inc') = some v1 ∧
      takeLists E auto (foldersOf E inc ++ made) ps v1 = some (v', os2) ∧ os = os1 ++ os2 := by
  rw [takeLists] at h
  cases hg : getAt v p with
  | none => rw [hg] at h; cases h
  | some w =>
    rw [hg] at h
    cases w with
    | none => cases h
    | str _ => cases h
    | list inc =>
      simp only [Option.bind_eq_some_iff, Option.map_eq_some_iff, Prod.mk.injEq] at h
      obtain ⟨⟨inc', os1⟩, hd, v1, hs, ⟨q1, q2⟩, hq, rfl, rfl⟩ := h
      exact ⟨inc, inc', os1, v1, q2, rfl, hd, hs, hq, rfl⟩

/-- calm places keep their values -/
theorem takeLists_calm {E : Nested.Env} {auto : Bool} {q : List Nat} : ∀ (ps : List (List Nat)) (made : List Text) (v v' : Val) (os : List Obj),
    takeLists E auto made ps v = some (v', os) → (∀ p ∈ ps, Calm p q) → getAt v' q = getAt v q
  | [], made, v, v', os, h, _ => by
    rw [takeLists] at h
    cases h
    rfl
  | p :: ps, made, v, v', os, h, hc => by
    obtain ⟨inc, inc', os1, v1, os2, hg, hd, hs, ht, rfl⟩ := takeLists_cons h
    rw [takeLists_calm ps _ v1 v' os2 ht (fun p hp => hc p (List.mem_cons_of_mem _ hp))]
    rcases hc p List.mem_cons_self with ha | ⟨k, r, hk, rfl⟩
    · exact getAt_frame _ _ _ _ _ hs ha.1 ha.2
    · rw [getAt_append, getAt_append, hg, getAt_setAt _ _ _ _ hs, Option.bind_some, Option.bind_some]
      obtain ⟨a, b, n, c, slots, slots', rfl, _, _, rfl⟩ := decodeFrom_some hd
      have : k = 0 ∨ k = 1 ∨ k = 2 := by omega
      rcases this with rfl | rfl | rfl <;> rfl

/-- taking the lists apart commutes with an assignment elsewhere -/
theorem takeLists_comm {E : Nested.Env} {auto : Bool} {q : List Nat} {w : Val} : ∀ (ps : List (List Nat)) (made : List Text) (v u u' : Val) (os : List Obj),
    (∀ p ∈ ps, Apart p q) → setAt v q w = some u → takeLists E auto made ps u = some (u', os) →
    ∃ t, takeLists E auto made ps v = some (t, os) ∧ setAt t q w = some u'
  | [], made, v, u, u', os, _, hs, h => by
    rw [takeLists] at h
    cases h
    exact ⟨v, by rw [takeLists], hs⟩
  | p :: ps, made, v, u, u', os, hp, hs, h => by
    obtain ⟨inc, inc', os1, v1, os2, hg, hd, hs1, ht, rfl⟩ := takeLists_cons h
    have hpq := hp p List.mem_cons_self
    have hgv : getAt v p = some (.list inc) := by rw [← hg, getAt_frame _ _ _ _ _ hs hpq.2 hpq.1]
    obtain ⟨v3, e1, e2⟩ := setAt_comm q p v w (.list inc') u v1 hpq.symm hs hs1
    obtain ⟨t, ht1, ht2⟩ := takeLists_comm ps _ v3 v1 u' os2 (fun p hm => hp p (List.mem_cons_of_mem _ hm)) e2 ht
    refine ⟨t, ?_, ht2⟩
    rw [takeLists, hgv]
    simp only [hd, Option.bind_some, e1, ht1, Option.map_some]

/-! ### without auto_include -/

theorem items_outside {E : Nested.Env} {ty : Text} : ∀ (n : Nat) (items items' : List Val) (os : List Obj),
    decodeItems E false ty n items = some (items', os) → (∀ o ∈ os, ∃ s, o.orig = .str s) → items' = items
  | 0, items, items', os, h, _ => by
    simp only [decodeItems, Option.some.injEq, Prod.mk.injEq] at h
    exact h.1.symm
  | n + 1, [], items', os, h, _ => by simp [decodeItems] at h
  | n + 1, .str s :: r, items', os, h, ho => by
    simp only [decodeItems, Option.map_eq_some_iff, Prod.mk.injEq] at h
    obtain ⟨⟨p1, p2⟩, hp, rfl, rfl⟩ := h
    rw [items_outside n r p1 p2 hp (fun o hm => ho o (List.mem_cons_of_mem _ hm))]
  | n + 1, .none :: r, items', os, h, ho => by
    simp only [decodeItems, Option.map_eq_some_iff, Prod.mk.injEq] at h
    obtain ⟨⟨p1, p2⟩, hp, rfl, rfl⟩ := h
    rw [items_outside n r p1 p2 hp ho]
  | n + 1, .list l :: r, items', os, h, ho => by
    rw [decodeItems] at h
    cases hh : E.handler ty with
    | missing =>
      simp only [hh, Option.map_eq_some_iff, Prod.mk.injEq] at h
      obtain ⟨⟨p1, p2⟩, hp, rfl, rfl⟩ := h
      rw [items_outside n r p1 p2 hp ho]
    | outside => simp [hh] at h
    | inside =>
      simp only [hh] at h
      cases hi : E.ident ty (.list l) with
      | none => simp [hi] at h
      | some u =>
        simp only [hi, Option.map_eq_some_iff, Prod.mk.injEq] at h
        obtain ⟨⟨p1, p2⟩, hp, _, rfl⟩ := h
        obtain ⟨s, hs⟩ := ho _ List.mem_cons_self
        cases hs

theorem slot_outside {E : Nested.Env} {s s' : Val} {os : List Obj} (h : decodeSlot E false s = some (s', os)) (ho : ∀ o ∈ os, ∃ s, o.orig = .str s) :
    s' = s := by
  match s, h with
  | .list (t :: .str n :: items), h =>
    simp only [decodeSlot] at h
    cases hn : V8.Dec.parseInt n with
    | none => simp [hn] at h
    | some c =>
      simp only [hn] at h
      cases hty : typeOf E t with
      | none =>
        simp only [hty] at h
        by_cases hc : c ≠ 0 ∧ items = []
        · rw [if_pos hc] at h; cases h
        · rw [if_neg hc] at h; cases h; rfl
      | some ty =>
        simp only [hty] at h
        by_cases hc : c = 0
        · rw [if_pos hc] at h; cases h; rfl
        · rw [if_neg hc] at h
          simp only [Option.map_eq_some_iff, Bool.false_eq_true, false_and, if_false, Prod.mk.injEq] at h
          obtain ⟨⟨p1, p2⟩, hp, rfl, rfl⟩ := h
          rw [items_outside _ _ _ _ hp ho]
  | .none, h => simp [decodeSlot] at h
  | .str _, h => simp [decodeSlot] at h
  | .list [], h => simp [decodeSlot] at h
  | .list [_], h => simp [decodeSlot] at h
  | .list (_ :: .none :: _), h => simp [decodeSlot] at h
  | .list (_ :: .list _ :: _), h => simp [decodeSlot] at h

theorem slots_outside {E : Nested.Env} : ∀ (n : Nat) (made : List Text) (slots slots' : List Val) (os : List Obj),
    decodeSlots E false made n slots = some (slots', os) → (∀ o ∈ os, ∃ s, o.orig = .str s) → slots' = slots
  | 0, made, slots, slots', os, h, _ => by
    simp only [decodeSlots, Option.some.injEq, Prod.mk.injEq] at h
    exact h.1.symm
  | n + 1, made, [], slots', os, h, _ => by simp [decodeSlots] at h
  | n + 1, made, s :: r, slots', os, h, ho => by
    obtain ⟨s', os1, made', r', os2, h1, h2, rfl, rfl, _, _⟩ := decodeSlots_cons h
    rw [slot_outside h1 (fun o hm => ho o (List.mem_append_left _ hm)),
      slots_outside n made' r r' os2 h2 (fun o hm => ho o (List.mem_append_right _ hm))]

/-- without auto_include lists of objects with files of their own are left as they are -/
theorem takeLists_outside {E : Nested.Env} : ∀ (ps : List (List Nat)) (made : List Text) (v v' : Val) (os : List Obj),
    takeLists E false made ps v = some (v', os) → (∀ o ∈ os, ∃ s, o.orig = .str s) → v' = v
  | [], made, v, v', os, h, _ => by
    rw [takeLists] at h
    cases h
    rfl
  | p :: ps, made, v, v', os, h, ho => by
    obtain ⟨inc, inc', os1, v1, os2, hg, hd, hs, ht, rfl⟩ := takeLists_cons h
    obtain ⟨a, b, n, c, slots, slots', rfl, _, hds, rfl⟩ := decodeFrom_some hd
    rw [slots_outside _ _ _ _ _ hds (fun o hm => ho o (List.mem_append_left _ hm)), setAt_getAt _ _ _ hg] at hs
    cases hs
    exact takeLists_outside ps _ v v' os2 ht (fun o hm => ho o (List.mem_append_right _ hm))

/-! ### with auto_include -/

/-- the slots of the list at a place -/
def slotsAt (v : Val) (p : List Nat) : List Val := match getAt v p with
  | some (.list (_ :: _ :: _ :: slots)) => slots
  | _ => []

theorem takeLists_auto_none {E : Nested.Env} : ∀ (ps : List (List Nat)) (made : List Text) (v v' : Val),
    takeLists E true made ps v = some (v', []) → (∀ p ∈ ps, ∀ s ∈ slotsAt v p, Tidy E s) → ps.Pairwise Apart → v' = v
  | [], made, v, v', h, _, _ => by
    rw [takeLists] at h
    cases h
    rfl
  | p :: ps, made, v, v', h, htidy, hpw => by
    obtain ⟨inc, inc', os1, v1, os2, hg, hd, hs, ht, he⟩ := takeLists_cons h
    obtain ⟨rfl, rfl⟩ := List.append_eq_nil_iff.mp he.symm
    obtain ⟨a, b, n, c, slots, slots', rfl, _, hds, rfl⟩ := decodeFrom_some hd
    have h1 : ∀ s ∈ slots, Tidy E s := by
      have := htidy p List.mem_cons_self
      unfold slotsAt at this
      rw [hg] at this
      exact this
    rw [auto_none _ _ _ _ hds h1, setAt_getAt _ _ _ hg] at hs
    cases hs
    exact takeLists_auto_none ps _ v v' ht (fun p hp => htidy p (List.mem_cons_of_mem _ hp)) (List.pairwise_cons.mp hpw).2

/-- the folders of a list are the types of the objects found in it -/
theorem types_folders {E : Nested.Env} {auto : Bool} : ∀ (n : Nat) (made : List Text) (slots slots' : List Val) (os : List Obj),
    decodeSlots E auto made n slots = some (slots', os) → (∀ s ∈ slots, Tidy E s) → ∀ o ∈ os, o.ty ∈ (slots.take n).filterMap (folderOf E)
  | 0, made, slots, slots', os, h, _ => by
    simp only [decodeSlots, Option.some.injEq, Prod.mk.injEq] at h
    intro o ho
    rw [← h.2] at ho
    cases ho
  | n + 1, made, [], slots', os, h, _ => by simp [decodeSlots] at h
  | n + 1, made, s :: r, slots', os, h, ht => by
    obtain ⟨s', os1, made', r', os2, h1, h2, rfl, rfl, _, _⟩ := decodeSlots_cons h
    intro o ho
    rw [List.take_succ_cons]
    rcases List.mem_append.mp ho with ho | ho
    · have hobj := slot_objs h1 (ht s List.mem_cons_self)
      have hm : (o.ty, o.orig) ∈ listedSlot E s := by
        rw [← hobj]
        exact List.mem_map.mpr ⟨o, ho, rfl⟩
      have hfo : folderOf E s = some o.ty := by
        match s, h1, hm, ht s List.mem_cons_self with
        | .list (t :: .str n :: items), h1, hm, hti =>
          simp only [listedSlot] at hm
          cases hty : typeOf E t with
          | none => rw [hty] at hm; cases hm
          | some ty =>
            rw [hty] at hm
            simp only at hm
            by_cases hh : E.handler ty = .missing
            · rw [if_pos hh] at hm; cases hm
            · rw [if_neg hh, List.mem_map] at hm
              obtain ⟨x, hx, he⟩ := hm
              obtain ⟨rfl, _⟩ := Prod.mk.inj he
              have hcount := hti.counted t n items _ rfl hty
              have hgap := hti.noGap
              cases items with
              | nil => cases hx
              | cons y ys =>
                have hpi : V8.Dec.parseInt n = some ((ys.length + 1 : Nat) : Int) := by
                  rw [hcount, V8.Dec.parse_showNat]; rfl
                simp only [folderOf, hpi, hty]
                rw [if_neg (by omega)]
                cases y with
                | none => exact absurd (List.mem_cons_of_mem _ (List.mem_cons_of_mem _ List.mem_cons_self)) hgap
                | str _ => rfl
                | list _ => simp only; rw [if_neg hh]
        | .none, h1, hm, _ => simp [decodeSlot] at h1
        | .str _, h1, hm, _ => simp [decodeSlot] at h1
        | .list [], h1, hm, _ => simp [decodeSlot] at h1
        | .list [_], h1, hm, _ => simp [decodeSlot] at h1
        | .list (_ :: .none :: _), h1, hm, _ => simp [decodeSlot] at h1
        | .list (_ :: .list _ :: _), h1, hm, _ => simp [decodeSlot] at h1
      rw [List.filterMap_cons, hfo]
      exact List.mem_cons_self
    · have := types_folders n made' r r' os2 h2 (fun x hx => ht x (List.mem_cons_of_mem _ hx)) o ho
      rw [List.filterMap_cons]
      cases folderOf E s with
      | none => exact this
      | some f => exact List.mem_cons_of_mem _ this

/-- `fillSlots_auto` for a part of the lists: what was delivered has to match only for the types that were found here -/
theorem fillSlots_part {E : Nested.Env} {es : List Entry} {nm : Val → Text} (hr : ∀ e ∈ es, E.handler e.ty ≠ .missing)
    (hu : ∀ u ty, E.nameOf u = some ty → E.uuidOf ty = some u) (hnm : ∀ e ∈ es, e.nm = nm e.data) :
    ∀ (n : Nat) (made : List Text) (slots slots' : List Val) (os : List Obj),
      decodeSlots E true made n slots = some (slots', os) → (∀ s ∈ slots, Tidy E s) → (∀ s ∈ slots, NameOrder nm s) →
      (∀ o ∈ os, ((ofType o.ty es).map Entry.data).Perm ((objsOf o.ty os).map Obj.orig)) →
      fillSlots E es n slots' = some slots
  | 0, made, slots, slots', os, h, _, _, _ => by
      simp only [decodeSlots, Option.some.injEq, Prod.mk.injEq] at h
      rw [fillSlots, h.1]
  | n + 1, made, [], slots', os, h, _, _, _ => by simp [decodeSlots] at h
  | n + 1, made, s :: r, slots', os, h, ht, ho, hp => by
      obtain ⟨s', os1, made', r', os2, h1, h2, rfl, rfl, hf, hf'⟩ := decodeSlots_cons h
      have ht' : ∀ x ∈ r, Tidy E x := fun x hx => ht x (List.mem_cons_of_mem _ hx)
      have ho' : ∀ x ∈ r, NameOrder nm x := fun x hx => ho x (List.mem_cons_of_mem _ hx)
      have hnew := types_new n made' r r' os2 h2 ht'
      rcases slot_auto h1 (ht s List.mem_cons_self) with ⟨rfl, rfl, hfo, hfill⟩ | ⟨t, items, ty, rfl, htype, hfo, rfl, horig, hne, hty⟩
      · have ih := fillSlots_part hr hu hnm n made' r r' os2 h2 ht' ho' (by simpa using hp)
        simp only [fillSlots, hfill es hr, ih, Option.bind_some, Option.map_some]
      · obtain ⟨hm, rfl⟩ := hf ty hfo
        have ih := fillSlots_part hr hu hnm n (ty :: made) r r' os2 h2 ht' ho' (by
          intro o hmem
          have hne : o.ty ≠ ty := fun hc => hnew o hmem (by rw [hc]; exact List.mem_cons_self)
          have := hp o (List.mem_append_right _ hmem)
          rwa [objsOf_append, objsOf_none (os := os1) (fun o ho => by rw [hty o ho]; exact fun hc => hne hc.symm),
            List.nil_append] at this)
        obtain ⟨o1, ho1⟩ := List.exists_mem_of_ne_nil _ hne
        have hperm := hp o1 (List.mem_append_left _ ho1)
        rw [hty o1 ho1, objsOf_append, objsOf_all hty, objsOf_none (os := os2) (fun o ho hc => hnew o ho (by rw [hc]; exact List.mem_cons_self)),
          List.append_nil, horig] at hperm
        have hord := ho _ List.mem_cons_self
        have hs := sorted_data (fun e he => hnm e (mem_ofType.mp he).1) hperm hord.1 hord.2
        have hslot : fillSlot E es (.str ty) = some (.list (t :: .str (V8.Dec.showNat items.length) :: items)) := by
          match t, htype with
          | .str u, htype =>
            have := hu u ty htype
            simp only [fillSlot, this, hs]
        simp only [fillSlots, hslot, ih, Option.bind_some, Option.map_some]

theorem takeLists_new {E : Nested.Env} : ∀ (ps : List (List Nat)) (made : List Text) (v v' : Val) (os : List Obj),
    takeLists E true made ps v = some (v', os) → (∀ p ∈ ps, ∀ s ∈ slotsAt v p, Tidy E s) → ps.Pairwise Apart → ∀ o ∈ os, o.ty ∉ made
  | [], made, v, v', os, h, _, _ => by
    rw [takeLists] at h
    cases h
    intro o ho
    cases ho
  | p :: ps, made, v, v', os, h, htidy, hpw => by
    obtain ⟨inc, inc', os1, v1, os2, hg, hd, hs, ht, rfl⟩ := takeLists_cons h
    obtain ⟨a, b, n, c, slots, slots', rfl, _, hds, rfl⟩ := decodeFrom_some hd
    have h1 : ∀ s ∈ slots, Tidy E s := by
      have := htidy p List.mem_cons_self
      unfold slotsAt at this
      rw [hg] at this
      exact this
    have h2 : ∀ q ∈ ps, ∀ s ∈ slotsAt v1 q, Tidy E s := by
      intro q hq
      have ha := (List.pairwise_cons.mp hpw).1 q hq
      unfold slotsAt
      rw [getAt_frame _ _ _ _ _ hs ha.1 ha.2]
      exact htidy q (List.mem_cons_of_mem _ hq)
    intro o ho
    rcases List.mem_append.mp ho with ho | ho
    · exact types_new _ _ _ _ _ hds h1 o ho
    · exact fun hm => takeLists_new ps _ v1 v' os2 ht h2 (List.pairwise_cons.mp hpw).2 o ho (List.mem_append_right _ hm)

/-- with auto_include the lists come back, if what is delivered is what was found -/
theorem putLists_takeLists {E : Nested.Env} {es : List Entry} {nm : Val → Text} (hr : ∀ e ∈ es, E.handler e.ty ≠ .missing)
    (hu : ∀ u ty, E.nameOf u = some ty → E.uuidOf ty = some u) (hnm : ∀ e ∈ es, e.nm = nm e.data) :
    ∀ (ps : List (List Nat)) (made : List Text) (v v' : Val) (os : List Obj), takeLists E true made ps v = some (v', os) →
      (∀ p ∈ ps, ∀ s ∈ slotsAt v p, Tidy E s) → (∀ p ∈ ps, ∀ s ∈ slotsAt v p, NameOrder nm s) → ps.Pairwise Apart →
      (∀ o ∈ os, ((ofType o.ty es).map Entry.data).Perm ((objsOf o.ty os).map Obj.orig)) → putLists E es ps v' = some v
  | [], made, v, v', os, h, _, _, _, _ => by
    rw [takeLists] at h
    cases h
    rfl
  | p :: ps, made, v, v', os, h, htidy, hord, hpw, hall => by
    obtain ⟨inc, inc', os1, v1, os2, hg, hd, hs, ht, rfl⟩ := takeLists_cons h
    obtain ⟨hp1, hp2⟩ := List.pairwise_cons.mp hpw
    obtain ⟨t, ht1, ht2⟩ := takeLists_comm ps _ v v1 v' os2 (fun q hq => (hp1 q hq).symm) hs ht
    obtain ⟨a, b, n, c, slots, slots', hinc, hc, hds, rfl⟩ := decodeFrom_some hd
    have h1 : slotsAt v p = slots := by unfold slotsAt; rw [hg, hinc]
    have h2 : ∀ q ∈ ps, slotsAt v1 q = slotsAt v q := by
      intro q hq
      unfold slotsAt
      rw [getAt_frame _ _ _ _ _ hs (hp1 q hq).1 (hp1 q hq).2]
    have hnew := takeLists_new ps _ v1 v' os2 ht (fun q hq => by rw [h2 q hq]; exact htidy q (List.mem_cons_of_mem _ hq)) hp2
    have hty1 := types_folders _ _ _ _ _ hds (h1 ▸ htidy p List.mem_cons_self)
    have hfold : foldersOf E inc = (slots.take c.toNat).filterMap (folderOf E) := by rw [hinc]; simp only [foldersOf, hc]
    have e1 : ∀ ty, (∃ o ∈ os1, o.ty = ty) → objsOf ty (os1 ++ os2) = objsOf ty os1 := by
      rintro ty ⟨o, ho, rfl⟩
      rw [objsOf_append, objsOf_none (os := os2), List.append_nil]
      intro o' ho' he
      refine hnew o' ho' (List.mem_append_left _ ?_)
      rw [he, hfold]
      exact hty1 o ho
    have e2 : ∀ ty, (∃ o ∈ os2, o.ty = ty) → objsOf ty (os1 ++ os2) = objsOf ty os2 := by
      rintro ty ⟨o, ho, rfl⟩
      rw [objsOf_append, objsOf_none (os := os1), List.nil_append]
      intro o' ho' he
      refine hnew o ho (List.mem_append_left _ ?_)
      rw [← he, hfold]
      exact hty1 o' ho'
    have ih := putLists_takeLists hr hu hnm ps _ v t os2 ht1 (fun q hq => htidy q (List.mem_cons_of_mem _ hq))
      (fun q hq => hord q (List.mem_cons_of_mem _ hq)) hp2 (fun o ho => by
        rw [← e2 o.ty ⟨o, ho, rfl⟩]
        exact hall o (List.mem_append_right _ ho))
    have hfill := fillSlots_part hr hu hnm _ _ _ _ _ hds (h1 ▸ htidy p List.mem_cons_self) (h1 ▸ hord p List.mem_cons_self) (fun o ho => by
        rw [← e1 o.ty ⟨o, ho, rfl⟩]
        exact hall o (List.mem_append_left _ ho))
    have hgt : getAt t p = some (.list inc) := by
      rw [takeLists_calm ps _ v t os2 ht1 (fun q hq => .inl (hp1 q hq).symm), hg]
    have hback : setAt v' p (.list inc) = some t := by rw [setAt_setAt _ _ _ _ _ ht2, setAt_getAt _ _ _ hgt]
    rw [putLists, getAt_setAt _ _ _ _ ht2]
    simp only [fillInclude, hc, hfill, Option.map_some, Option.bind_some, ← hinc, hback, ih]

end V8.Root
