import Verif.Nested
/- Helper lemmas about the lists of nested objects. -/
namespace V8.Nested
open V8.Brace V8.Dec
open V8.Encode (lower)

/-- The nested objects `os` came back as the entries `es`: each of them is there, nothing else passes for it, and what is delivered is
what stood in the list (the identifier of an object with a file of its own, the raw data of an inner one).  A type without a class
delivers nothing. -/
structure Delivers (E : Env) (es : List Entry) (os : List Obj) : Prop where
  found : ∀ o ∈ os, ∃ e ∈ es, e.ty = o.ty ∧ lower e.uu = lower o.uu
  same : ∀ o ∈ os, ∀ e ∈ es, e.ty = o.ty → lower e.uu = lower o.uu → e.data = o.orig
  real : ∀ e ∈ es, E.handler e.ty ≠ .missing

theorem Delivers.mono {E : Env} {es : List Entry} {os os' : List Obj} (h : Delivers E es os) (hs : ∀ o ∈ os', o ∈ os) :
    Delivers E es os' :=
  ⟨fun o ho => h.found o (hs o ho), fun o ho => h.same o (hs o ho), h.real⟩

/-- there is no empty place in the list -/
def NoGap : Val → Prop
  | .list l => Val.none ∉ l
  | _ => True

instance : DecidablePred NoGap := fun v => match v with
  | .list l => inferInstanceAs (Decidable (Val.none ∉ l))
  | .none => .isTrue trivial
  | .str _ => .isTrue trivial

theorem decodeItems_none {E : Env} {ty : Text} : ∀ (n : Nat) (items items' : List Val),
    decodeItems E false ty n items = some (items', []) → items' = items
  | 0, items, items', h => by simp only [decodeItems, Option.some.injEq, Prod.mk.injEq] at h; exact h.1.symm
  | n + 1, [], items', h => by simp [decodeItems] at h
  | n + 1, .str s :: r, items', h => by
      simp only [decodeItems, Option.map_eq_some_iff, Prod.mk.injEq] at h
      obtain ⟨p, _, _, h2⟩ := h
      cases h2
  | n + 1, .none :: r, items', h => by
      simp only [decodeItems, Option.map_eq_some_iff, Prod.mk.injEq] at h
      obtain ⟨p, h1, h2, h3⟩ := h
      have : p = (p.1, []) := by rw [← h3]
      rw [this] at h1
      rw [← h2, decodeItems_none n r _ h1]
  | n + 1, .list l :: r, items', h => by
      simp only [decodeItems] at h
      cases hh : E.handler ty with
      | missing =>
        simp only [hh, Option.map_eq_some_iff, Prod.mk.injEq] at h
        obtain ⟨p, h1, h2, h3⟩ := h
        have : p = (p.1, []) := by rw [← h3]
        rw [this] at h1
        rw [← h2, decodeItems_none n r _ h1]
      | outside => simp [hh] at h
      | inside =>
        simp only [hh] at h
        cases hi : E.ident ty (.list l) with
        | none => simp [hi] at h
        | some u =>
          simp only [hi, Option.map_eq_some_iff, Prod.mk.injEq] at h
          obtain ⟨p, _, _, h2⟩ := h
          cases h2

/-- the objects of a list have its type -/
theorem decodeItems_ty {E : Env} {auto : Bool} {ty : Text} : ∀ (n : Nat) (items items' : List Val) (os : List Obj),
    decodeItems E auto ty n items = some (items', os) → ∀ o ∈ os, o.ty = ty
  | 0, items, items', os, h => by
      simp only [decodeItems, Option.some.injEq, Prod.mk.injEq] at h
      intro o ho; rw [← h.2] at ho; cases ho
  | n + 1, [], items', os, h => by simp [decodeItems] at h
  | n + 1, .str s :: r, items', os, h => by
      simp only [decodeItems, Option.map_eq_some_iff, Prod.mk.injEq] at h
      obtain ⟨p, h1, _, h2⟩ := h
      intro o ho
      rw [← h2] at ho
      rcases List.mem_cons.mp ho with rfl | ho
      · rfl
      · exact decodeItems_ty n r p.1 p.2 h1 o ho
  | n + 1, .none :: r, items', os, h => by
      simp only [decodeItems, Option.map_eq_some_iff, Prod.mk.injEq] at h
      obtain ⟨p, h1, _, h2⟩ := h
      intro o ho
      rw [← h2] at ho
      exact decodeItems_ty n r p.1 p.2 h1 o ho
  | n + 1, .list l :: r, items', os, h => by
      simp only [decodeItems] at h
      cases hh : E.handler ty with
      | missing =>
        simp only [hh, Option.map_eq_some_iff, Prod.mk.injEq] at h
        obtain ⟨p, h1, _, h2⟩ := h
        intro o ho
        rw [← h2] at ho
        exact decodeItems_ty n r p.1 p.2 h1 o ho
      | outside => simp [hh] at h
      | inside =>
        simp only [hh] at h
        cases hi : E.ident ty (.list l) with
        | none => simp [hi] at h
        | some u =>
          simp only [hi, Option.map_eq_some_iff, Prod.mk.injEq] at h
          obtain ⟨p, h1, _, h2⟩ := h
          intro o ho
          rw [← h2] at ho
          rcases List.mem_cons.mp ho with rfl | ho
          · rfl
          · exact decodeItems_ty n r p.1 p.2 h1 o ho

theorem mem_ofType {ty : Text} {es : List Entry} {e : Entry} : e ∈ ofType ty es ↔ e ∈ es ∧ e.ty = ty := by
  simp [ofType]

theorem lookup_delivered {E : Env} {es : List Entry} {os : List Obj} (hd : Delivers E es os) {o : Obj} (ho : o ∈ os) (ty : Text)
    (hty : o.ty = ty) : ∃ e, lookup (ofType ty es) o.uu = some e ∧ e.data = o.orig := by
  obtain ⟨e, he, h1, h2⟩ := hd.found o ho
  cases hl : lookup (ofType ty es) o.uu with
  | none =>
    exfalso
    have := List.find?_eq_none.mp hl e (by rw [List.mem_reverse, mem_ofType]; exact ⟨he, by rw [h1, hty]⟩)
    simp [h2] at this
  | some e' =>
    refine ⟨e', rfl, ?_⟩
    have hm := List.mem_of_find?_eq_some hl
    have hp := List.find?_some hl
    rw [List.mem_reverse, mem_ofType] at hm
    exact hd.same o ho e' hm.1 (by rw [hm.2, hty]) (by simpa using hp)

theorem fillItems_decodeItems {E : Env} {es : List Entry} {ty : Text} (hm : E.handler ty ≠ .missing) :
    ∀ (n : Nat) (items items' : List Val) (os : List Obj), decodeItems E false ty n items = some (items', os) →
      Delivers E es os → Val.none ∉ items → fillItems (ofType ty es) n items' = some items
  | 0, items, items', os, h, _, _ => by
      simp only [decodeItems, Option.some.injEq, Prod.mk.injEq] at h
      rw [fillItems, h.1]
  | n + 1, [], items', os, h, _, _ => by simp [decodeItems] at h
  | n + 1, .str s :: r, items', os, h, hd, hg => by
      simp only [decodeItems, Option.map_eq_some_iff, Prod.mk.injEq] at h
      obtain ⟨p, h1, h2, h3⟩ := h
      obtain ⟨e, he, hdat⟩ := lookup_delivered hd (o := ⟨ty, s, .str s⟩) (by rw [← h3]; exact List.mem_cons_self) ty rfl
      have ih := fillItems_decodeItems hm n r p.1 p.2 h1 (hd.mono (fun o ho => by rw [← h3]; exact List.mem_cons_of_mem _ ho))
        (fun hc => hg (List.mem_cons_of_mem _ hc))
      rw [← h2, fillItems]
      simp only [he, ih, Option.map_some, hdat]
  | n + 1, .none :: r, items', os, h, hd, hg => absurd List.mem_cons_self hg
  | n + 1, .list l :: r, items', os, h, hd, hg => by
      simp only [decodeItems] at h
      cases hh : E.handler ty with
      | missing => exact absurd hh hm
      | outside => simp [hh] at h
      | inside =>
        simp only [hh] at h
        cases hi : E.ident ty (.list l) with
        | none => simp [hi] at h
        | some u =>
          simp only [hi, Option.map_eq_some_iff, Prod.mk.injEq] at h
          obtain ⟨p, h1, h2, h3⟩ := h
          obtain ⟨e, he, hdat⟩ := lookup_delivered hd (o := ⟨ty, u, .list l⟩) (by rw [← h3]; exact List.mem_cons_self) ty rfl
          have ih := fillItems_decodeItems hm n r p.1 p.2 h1 (hd.mono (fun o ho => by rw [← h3]; exact List.mem_cons_of_mem _ ho))
            (fun hc => hg (List.mem_cons_of_mem _ hc))
          simp only [Bool.false_eq_true, if_false] at h2
          rw [← h2, fillItems]
          simp only [he, ih, Option.map_some, hdat]

theorem fillSlot_decodeSlot {E : Env} {es : List Entry} {s s' : Val} {os : List Obj} (h : decodeSlot E false s = some (s', os))
    (hd : Delivers E es os) (hg : NoGap s) : fillSlot E es s' = some s := by
  match s, h, hg with
  | .list (t :: .str n :: items), h, hg =>
    simp only [decodeSlot] at h
    cases hn : parseInt n with
    | none => simp [hn] at h
    | some c =>
      simp only [hn] at h
      cases ht : typeOf E t with
      | none =>
        simp only [ht] at h
        by_cases hc : c ≠ 0 ∧ items = []
        · rw [if_pos hc] at h; cases h
        · rw [if_neg hc] at h
          simp only [Option.some.injEq, Prod.mk.injEq] at h
          rw [← h.1]
          simp only [fillSlot, hn, ht]
      | some ty =>
        simp only [ht] at h
        have hgi : Val.none ∉ items := fun hc => hg (List.mem_cons_of_mem _ (List.mem_cons_of_mem _ hc))
        by_cases hc : c = 0
        · rw [if_pos hc] at h
          simp only [Option.some.injEq, Prod.mk.injEq] at h
          rw [← h.1]
          subst hc
          simp only [fillSlot, hn, ht]
          by_cases hF : ofType ty es = []
          · rw [if_pos hF]
          · rw [if_neg hF]; simp [fillItems]
        · rw [if_neg hc] at h
          simp only [Option.map_eq_some_iff] at h
          obtain ⟨p, h1, h2⟩ := h
          simp only [Bool.false_eq_true, false_and, if_false, Prod.mk.injEq] at h2
          rw [← h2.1]
          simp only [fillSlot, hn, ht]
          by_cases hF : ofType ty es = []
          · rw [if_pos hF]
            have : p.2 = [] := by
              rcases hp : p.2 with _ | ⟨o, r⟩
              · rfl
              · exfalso
                obtain ⟨e, he, he1, _⟩ := hd.found o (by rw [← h2.2, hp]; exact List.mem_cons_self)
                have hty := decodeItems_ty _ _ p.1 p.2 h1 o (by rw [hp]; exact List.mem_cons_self)
                have : e ∈ ofType ty es := mem_ofType.mpr ⟨he, by rw [he1, hty]⟩
                rw [hF] at this; cases this
            have hp : p = (p.1, []) := by rw [← this]
            rw [hp] at h1
            rw [decodeItems_none _ _ _ h1]
          · rw [if_neg hF]
            have hm : E.handler ty ≠ .missing := by
              obtain ⟨e, he⟩ := List.exists_mem_of_ne_nil _ hF
              rw [mem_ofType] at he
              rw [← he.2]; exact hd.real e he.1
            rw [fillItems_decodeItems hm _ _ _ _ h1 (by rw [h2.2]; exact hd) hgi]
            rfl

/-- taking the lists apart one by one, without the folders -/
theorem decodeSlots_cons {E : Env} {auto : Bool} {made : List Text} {n : Nat} {s : Val} {r : List Val} {x : List Val} {os : List Obj}
    (h : decodeSlots E auto made (n + 1) (s :: r) = some (x, os)) :
    ∃ s' os1 made' r' os2, decodeSlot E auto s = some (s', os1) ∧ decodeSlots E auto made' n r = some (r', os2) ∧
      x = s' :: r' ∧ os = os1 ++ os2 ∧ (∀ f, folderOf E s = some f → f ∉ made ∧ made' = f :: made) ∧
      (folderOf E s = none → made' = made) := by
  simp only [decodeSlots] at h
  cases hs : decodeSlot E auto s with
  | none => simp [hs] at h
  | some p =>
    obtain ⟨s', os1⟩ := p
    simp only [hs] at h
    cases hf : folderOf E s with
    | none =>
      simp only [hf, Option.map_eq_some_iff, Prod.mk.injEq] at h
      obtain ⟨p, h1, h2, h3⟩ := h
      exact ⟨s', os1, made, p.1, p.2, rfl, h1, h2.symm, h3.symm, (fun f hh => by cases hh), (fun _ => rfl)⟩
    | some f =>
      simp only [hf] at h
      by_cases hm : f ∈ made
      · rw [if_pos hm] at h; cases h
      · rw [if_neg hm] at h
        simp only [Option.map_eq_some_iff, Prod.mk.injEq] at h
        obtain ⟨p, h1, h2, h3⟩ := h
        exact ⟨s', os1, f :: made, p.1, p.2, rfl, h1, h2.symm, h3.symm, (fun g hh => by cases hh; exact ⟨hm, rfl⟩),
          (fun hh => by cases hh)⟩

theorem fillSlots_decodeSlots {E : Env} {es : List Entry} : ∀ (n : Nat) (made : List Text) (slots slots' : List Val) (os : List Obj),
    decodeSlots E false made n slots = some (slots', os) → Delivers E es os → (∀ s ∈ slots, NoGap s) →
      fillSlots E es n slots' = some slots
  | 0, made, slots, slots', os, h, _, _ => by
      simp only [decodeSlots, Option.some.injEq, Prod.mk.injEq] at h
      rw [fillSlots, h.1]
  | n + 1, made, [], slots', os, h, _, _ => by simp [decodeSlots] at h
  | n + 1, made, s :: r, slots', os, h, hd, hg => by
      obtain ⟨s', os1, made', r', os2, h1, h2, rfl, rfl, _, _⟩ := decodeSlots_cons h
      have e1 := fillSlot_decodeSlot h1 (hd.mono (fun o ho => List.mem_append_left _ ho)) (hg s List.mem_cons_self)
      have e2 := fillSlots_decodeSlots n made' r r' os2 h2 (hd.mono (fun o ho => List.mem_append_right _ ho))
        (fun x hx => hg x (List.mem_cons_of_mem _ hx))
      simp only [fillSlots, e1, e2, Option.bind_some, Option.map_some]

/-- the three parts of a list of lists -/
theorem decodeInclude_some {E : Env} {auto : Bool} {inc inc' : List Val} {os : List Obj}
    (h : decodeInclude E auto inc = some (inc', os)) :
    ∃ a b n c slots slots', inc = a :: b :: .str n :: slots ∧ parseInt n = some c ∧
      decodeSlots E auto [] c.toNat slots = some (slots', os) ∧ inc' = a :: b :: .str n :: slots' := by
  match inc, h with
  | a :: b :: .str n :: slots, h =>
    simp only [decodeInclude] at h
    cases hn : parseInt n with
    | none => simp [hn] at h
    | some c =>
      simp only [hn, Option.map_eq_some_iff, Prod.mk.injEq] at h
      obtain ⟨p, h1, h2, h3⟩ := h
      refine ⟨a, b, n, c, slots, p.1, rfl, hn, ?_, h2.symm⟩
      rw [h1, ← h3]

/-! ### automatic lists -/

/-- A list in the form the platform writes: no empty places, the number is the number of objects, and a type without a class has only
inner data. -/
structure Tidy (E : Env) (s : Val) : Prop where
  noGap : NoGap s
  counted : ∀ t n items ty, s = .list (t :: .str n :: items) → typeOf E t = some ty → n = showNat items.length
  inner : ∀ t n items ty, s = .list (t :: .str n :: items) → typeOf E t = some ty → E.handler ty = .missing →
    ∀ x ∈ items, ∃ l, x = .list l

theorem decodeItems_missing {E : Env} {ty : Text} {auto : Bool} (hm : E.handler ty = .missing) : ∀ (items : List Val),
    (∀ x ∈ items, ∃ l, x = .list l) → decodeItems E auto ty items.length items = some (items, [])
  | [], _ => rfl
  | x :: r, h => by
      obtain ⟨l, rfl⟩ := h x List.mem_cons_self
      simp only [List.length_cons, decodeItems, hm]
      rw [decodeItems_missing hm r (fun y hy => h y (List.mem_cons_of_mem _ hy))]
      rfl

theorem decodeItems_all {E : Env} {ty : Text} {auto : Bool} (hm : E.handler ty ≠ .missing) : ∀ (items items' : List Val) (os : List Obj),
    decodeItems E auto ty items.length items = some (items', os) → Val.none ∉ items → os.map Obj.orig = items
  | [], items', os, h, _ => by
      simp only [List.length_nil, decodeItems, Option.some.injEq, Prod.mk.injEq] at h
      rw [← h.2]; rfl
  | .str s :: r, items', os, h, hg => by
      simp only [List.length_cons, decodeItems, Option.map_eq_some_iff, Prod.mk.injEq] at h
      obtain ⟨p, h1, _, h3⟩ := h
      rw [← h3, List.map_cons, decodeItems_all hm r p.1 p.2 h1 (fun hc => hg (List.mem_cons_of_mem _ hc))]
  | .none :: r, items', os, h, hg => absurd List.mem_cons_self hg
  | .list l :: r, items', os, h, hg => by
      simp only [List.length_cons, decodeItems] at h
      cases hh : E.handler ty with
      | missing => exact absurd hh hm
      | outside => simp [hh] at h
      | inside =>
        simp only [hh] at h
        cases hi : E.ident ty (.list l) with
        | none => simp [hi] at h
        | some u =>
          simp only [hi, Option.map_eq_some_iff, Prod.mk.injEq] at h
          obtain ⟨p, h1, _, h3⟩ := h
          rw [← h3, List.map_cons, decodeItems_all hm r p.1 p.2 h1 (fun hc => hg (List.mem_cons_of_mem _ hc))]

theorem toNat_len {items : List Val} {n : Text} {c : Int} (hn : n = showNat items.length) (hc : parseInt n = some c) :
    c = items.length := by
  rw [hn, parse_showNat] at hc
  exact (Option.some.inj hc).symm

/-- what becomes of a list in automatic mode: nothing, or it is replaced by the name of its type -/
theorem slot_auto {E : Env} {s s' : Val} {os : List Obj} (h : decodeSlot E true s = some (s', os)) (ht : Tidy E s) :
    (os = [] ∧ s' = s ∧ folderOf E s = none ∧
      ∀ es : List Entry, (∀ e ∈ es, E.handler e.ty ≠ .missing) → fillSlot E es s = some s) ∨
    (∃ t items ty, s = .list (t :: .str (showNat items.length) :: items) ∧ typeOf E t = some ty ∧ folderOf E s = some ty ∧
      s' = .str ty ∧ os.map Obj.orig = items ∧ os ≠ [] ∧ ∀ o ∈ os, o.ty = ty) := by
  match s, h, ht with
  | .list (t :: .str n :: items), h, ht =>
    simp only [decodeSlot] at h
    cases hn : parseInt n with
    | none => simp [hn] at h
    | some c =>
      simp only [hn] at h
      cases hty : typeOf E t with
      | none =>
        simp only [hty] at h
        by_cases hc : c ≠ 0 ∧ items = []
        · rw [if_pos hc] at h; cases h
        · rw [if_neg hc] at h
          simp only [Option.some.injEq, Prod.mk.injEq] at h
          refine .inl ⟨h.2.symm, h.1.symm, ?_, ?_⟩
          · cases items with
            | nil => rfl
            | cons x r => simp only [folderOf, hn, hty]
          · intro es _
            simp only [fillSlot, hn, hty]
      | some ty =>
        simp only [hty] at h
        have hcount := ht.counted t n items ty rfl hty
        have hlen := toNat_len hcount hn
        have hgi : Val.none ∉ items := fun hc => ht.noGap (List.mem_cons_of_mem _ (List.mem_cons_of_mem _ hc))
        by_cases hc : c = 0
        · rw [if_pos hc] at h
          simp only [Option.some.injEq, Prod.mk.injEq] at h
          have hi : items = [] := by
            apply List.eq_nil_of_length_eq_zero
            omega
          subst hi
          refine .inl ⟨h.2.symm, h.1.symm, rfl, ?_⟩
          intro es _
          subst hc
          simp only [fillSlot, hn, hty]
          by_cases hF : ofType ty es = []
          · rw [if_pos hF]
          · rw [if_neg hF]; simp [fillItems]
        · rw [if_neg hc] at h
          have hl : c.toNat = items.length := by omega
          simp only [Option.map_eq_some_iff, hl] at h
          obtain ⟨p, h1, h2⟩ := h
          by_cases hm : E.handler ty = .missing
          · have hall := ht.inner t n items ty rfl hty hm
            rw [decodeItems_missing hm items hall] at h1
            have hp : p = (items, []) := (Option.some.inj h1).symm
            subst hp
            simp only [ne_eq, not_true_eq_false, and_false, if_false, Prod.mk.injEq] at h2
            refine .inl ⟨h2.2.symm, h2.1.symm, ?_, ?_⟩
            · cases items with
              | nil => exfalso; simp at hlen; exact hc hlen
              | cons x r =>
                obtain ⟨l, rfl⟩ := hall x List.mem_cons_self
                simp only [folderOf, hn, hty, hm, if_true]
                split <;> rfl
            · intro es hr
              simp only [fillSlot, hn, hty]
              have hF : ofType ty es = [] := by
                rcases hF : ofType ty es with _ | ⟨e, r⟩
                · rfl
                · exfalso
                  have he : e ∈ ofType ty es := by rw [hF]; exact List.mem_cons_self
                  rw [mem_ofType] at he
                  exact hr e he.1 (by rw [he.2, hm])
              rw [if_pos hF]
          · have horig := decodeItems_all hm items p.1 p.2 h1 hgi
            have hne : p.2 ≠ [] := by
              intro hp
              rw [hp] at horig
              rw [← horig] at hlen
              simp at hlen
              exact hc hlen
            rw [if_pos ⟨trivial, hne⟩] at h2
            simp only [Prod.mk.injEq] at h2
            refine .inr ⟨t, items, ty, by rw [← hcount], hty, ?_, h2.1.symm, by rw [← h2.2]; exact horig, by rw [← h2.2]; exact hne,
              by rw [← h2.2]; exact decodeItems_ty _ _ p.1 p.2 h1⟩
            cases items with
            | nil => exfalso; simp at hlen; exact hc hlen
            | cons x r =>
              simp only [folderOf, hn, hty]
              rw [if_neg (by omega)]
              cases x with
              | none => exact absurd List.mem_cons_self hgi
              | str s => rfl
              | list l => simp only [hm, if_false]

/-- the types of the objects found are types whose folder was not there before -/
theorem types_new {E : Env} : ∀ (n : Nat) (made : List Text) (slots slots' : List Val) (os : List Obj),
    decodeSlots E true made n slots = some (slots', os) → (∀ s ∈ slots, Tidy E s) → ∀ o ∈ os, o.ty ∉ made
  | 0, made, slots, slots', os, h, _ => by
      simp only [decodeSlots, Option.some.injEq, Prod.mk.injEq] at h
      intro o ho; rw [← h.2] at ho; cases ho
  | n + 1, made, [], slots', os, h, _ => by simp [decodeSlots] at h
  | n + 1, made, s :: r, slots', os, h, ht => by
      obtain ⟨s', os1, made', r', os2, h1, h2, rfl, rfl, hf, hf'⟩ := decodeSlots_cons h
      have ih := types_new n made' r r' os2 h2 (fun x hx => ht x (List.mem_cons_of_mem _ hx))
      intro o ho
      rcases slot_auto h1 (ht s List.mem_cons_self) with ⟨rfl, _, hfo, _⟩ | ⟨t, items, ty, _, _, hfo, _, _, _, hty⟩
      · rw [hf' hfo] at ih
        exact ih o (by simpa using ho)
      · obtain ⟨hm, rfl⟩ := hf ty hfo
        rcases List.mem_append.mp ho with ho | ho
        · rw [hty o ho]; exact hm
        · intro hc; exact ih o ho (List.mem_cons_of_mem _ hc)

/-- the objects of one type -/
def objsOf (ty : Text) (os : List Obj) : List Obj := os.filter (fun o => decide (o.ty = ty))

theorem objsOf_all {ty : Text} {os : List Obj} (h : ∀ o ∈ os, o.ty = ty) : objsOf ty os = os := by
  apply List.filter_eq_self.mpr
  intro o ho; simp [h o ho]

theorem objsOf_none {ty : Text} {os : List Obj} (h : ∀ o ∈ os, o.ty ≠ ty) : objsOf ty os = [] := by
  apply List.filter_eq_nil_iff.mpr
  intro o ho; simp [h o ho]

theorem objsOf_append (ty : Text) (a b : List Obj) : objsOf ty (a ++ b) = objsOf ty a ++ objsOf ty b := List.filter_append ..

/-- the objects of a list stand in the order of their names, which are distinct -/
def NameOrder (nm : Val → Text) : Val → Prop
  | .list (_ :: _ :: items) => items.Pairwise (fun a b => textLe (nm a) (nm b) = true) ∧ (items.map nm).Nodup
  | _ => True

theorem sorted_data {es : List Entry} {nm : Val → Text} {items : List Val} (hnm : ∀ e ∈ es, e.nm = nm e.data)
    (hp : (es.map Entry.data).Perm items) (hs : items.Pairwise (fun a b => textLe (nm a) (nm b) = true)) (hn : (items.map nm).Nodup) :
    (sortBy Entry.nm es).map Entry.data = items := by
  have h1 : ((sortBy Entry.nm es).map Entry.data).Perm items := ((sortBy_perm Entry.nm es).map _).trans hp
  refine sorted_unique nm _ _ h1 ((h1.map nm).nodup_iff.mpr hn) ?_ hs
  rw [List.pairwise_map]
  refine (sortBy_sorted Entry.nm es).imp_of_mem ?_
  intro a b ha hb hab
  rw [← hnm a ((sortBy_perm _ _).subset ha), ← hnm b ((sortBy_perm _ _).subset hb)]
  exact hab

theorem fillSlots_auto {E : Env} {es : List Entry} {nm : Val → Text} (hr : ∀ e ∈ es, E.handler e.ty ≠ .missing)
    (hu : ∀ u ty, E.nameOf u = some ty → E.uuidOf ty = some u) (hnm : ∀ e ∈ es, e.nm = nm e.data) :
    ∀ (n : Nat) (made : List Text) (slots slots' : List Val) (os : List Obj),
      decodeSlots E true made n slots = some (slots', os) → (∀ s ∈ slots, Tidy E s) → (∀ s ∈ slots, NameOrder nm s) →
      (∀ ty, ty ∉ made → ((ofType ty es).map Entry.data).Perm ((objsOf ty os).map Obj.orig)) →
      fillSlots E es n slots' = some slots
  | 0, made, slots, slots', os, h, _, _, _ => by
      simp only [decodeSlots, Option.some.injEq, Prod.mk.injEq] at h
      rw [fillSlots, h.1]
  | n + 1, made, [], slots', os, h, _, _, _ => by simp [decodeSlots] at h
  | n + 1, made, s :: r, slots', os, h, ht, ho, hp => by
      obtain ⟨s', os1, made', r', os2, h1, h2, rfl, rfl, hf, hf'⟩ := decodeSlots_cons h
      have ht' : ∀ x ∈ r, Tidy E x := fun x hx => ht x (List.mem_cons_of_mem _ hx)
      have ho' : ∀ x ∈ r, NameOrder nm x := fun x hx => ho x (List.mem_cons_of_mem _ hx)
      have hnew := types_new n made' r r' os2 h2 ht'
      rcases slot_auto h1 (ht s List.mem_cons_self) with ⟨rfl, rfl, hfo, hfill⟩ | ⟨t, items, ty, rfl, htype, hfo, rfl, horig, _, hty⟩
      · have hm := hf' hfo
        subst hm
        have ih := fillSlots_auto hr hu hnm n made' r r' os2 h2 ht' ho' (by simpa using hp)
        simp only [fillSlots, hfill es hr, ih, Option.bind_some, Option.map_some]
      · obtain ⟨hm, rfl⟩ := hf ty hfo
        have ih := fillSlots_auto hr hu hnm n (ty :: made) r r' os2 h2 ht' ho' (by
          intro ty' hty'
          have hne : ty' ≠ ty := fun hc => hty' (by rw [hc]; exact List.mem_cons_self)
          have := hp ty' (fun hc => hty' (List.mem_cons_of_mem _ hc))
          rwa [objsOf_append, objsOf_none (os := os1) (fun o ho => by rw [hty o ho]; exact fun hc => hne hc.symm),
            List.nil_append] at this)
        have hperm := hp ty hm
        rw [objsOf_append, objsOf_all hty, objsOf_none (os := os2) (fun o ho hc => hnew o ho (by rw [hc]; exact List.mem_cons_self)),
          List.append_nil, horig] at hperm
        have hord := ho _ List.mem_cons_self
        have hs := sorted_data (fun e he => hnm e (mem_ofType.mp he).1) hperm hord.1 hord.2
        have hslot : fillSlot E es (.str ty) = some (.list (t :: .str (showNat items.length) :: items)) := by
          match t, htype with
          | .str u, htype =>
            have := hu u ty htype
            simp only [fillSlot, this, hs]
        simp only [fillSlots, hslot, ih, Option.bind_some, Option.map_some]

/-! ### which objects are found -/

/-- the objects of one list, with their type: what a reader of the raw data sees there -/
def listedSlot (E : Env) : Val → List (Text × Val)
  | .list (t :: _ :: items) => match typeOf E t with
    | some ty => if E.handler ty = .missing then [] else items.map (fun x => (ty, x))
    | none => []
  | _ => []

theorem slot_objs {E : Env} {auto : Bool} {s s' : Val} {os : List Obj} (h : decodeSlot E auto s = some (s', os)) (ht : Tidy E s) :
    os.map (fun o => (o.ty, o.orig)) = listedSlot E s := by
  match s, h, ht with
  | .list (t :: .str n :: items), h, ht =>
    simp only [decodeSlot] at h
    cases hn : parseInt n with
    | none => simp [hn] at h
    | some c =>
      simp only [hn] at h
      cases hty : typeOf E t with
      | none =>
        simp only [hty] at h
        by_cases hc : c ≠ 0 ∧ items = []
        · rw [if_pos hc] at h; cases h
        · rw [if_neg hc] at h
          simp only [Option.some.injEq, Prod.mk.injEq] at h
          rw [← h.2]
          simp only [listedSlot, hty, List.map_nil]
      | some ty =>
        simp only [hty] at h
        have hcount := ht.counted t n items ty rfl hty
        have hlen := toNat_len hcount hn
        have hgi : Val.none ∉ items := fun hc => ht.noGap (List.mem_cons_of_mem _ (List.mem_cons_of_mem _ hc))
        by_cases hc : c = 0
        · rw [if_pos hc] at h
          simp only [Option.some.injEq, Prod.mk.injEq] at h
          have hi : items = [] := by
            apply List.eq_nil_of_length_eq_zero
            omega
          subst hi
          rw [← h.2]
          simp [listedSlot, hty]
        · rw [if_neg hc] at h
          have hl : c.toNat = items.length := by omega
          simp only [Option.map_eq_some_iff, hl] at h
          obtain ⟨p, h1, h2⟩ := h
          have hos : p.2 = os := by
            by_cases hq : auto = true ∧ p.2 ≠ []
            · rw [if_pos hq] at h2; exact (Prod.mk.inj h2).2
            · rw [if_neg hq] at h2; exact (Prod.mk.inj h2).2
          rw [← hos]
          by_cases hm : E.handler ty = .missing
          · rw [decodeItems_missing hm items (ht.inner t n items ty rfl hty hm)] at h1
            rw [← Option.some.inj h1]
            simp [listedSlot, hty, hm]
          · have horig := decodeItems_all hm items p.1 p.2 h1 hgi
            have htys := decodeItems_ty _ _ p.1 p.2 h1
            simp only [listedSlot, hty, hm, if_false]
            rw [← horig, List.map_map]
            apply List.map_congr_left
            intro o ho
            simp [htys o ho]

theorem slots_objs {E : Env} {auto : Bool} : ∀ (n : Nat) (made : List Text) (slots slots' : List Val) (os : List Obj),
    decodeSlots E auto made n slots = some (slots', os) → (∀ s ∈ slots, Tidy E s) →
      os.map (fun o => (o.ty, o.orig)) = (slots.take n).flatMap (listedSlot E)
  | 0, made, slots, slots', os, h, _ => by
      simp only [decodeSlots, Option.some.injEq, Prod.mk.injEq] at h
      rw [← h.2]; rfl
  | n + 1, made, [], slots', os, h, _ => by simp [decodeSlots] at h
  | n + 1, made, s :: r, slots', os, h, ht => by
      obtain ⟨s', os1, made', r', os2, h1, h2, rfl, rfl, _, _⟩ := decodeSlots_cons h
      rw [List.map_append, slot_objs h1 (ht s List.mem_cons_self),
        slots_objs n made' r r' os2 h2 (fun x hx => ht x (List.mem_cons_of_mem _ hx)), List.take_succ_cons, List.flatMap_cons]

/-- no folder is made twice -/
theorem folders_nodup {E : Env} {auto : Bool} : ∀ (n : Nat) (made : List Text) (slots slots' : List Val) (os : List Obj),
    decodeSlots E auto made n slots = some (slots', os) →
      ((slots.take n).filterMap (folderOf E)).Nodup ∧ ∀ f ∈ (slots.take n).filterMap (folderOf E), f ∉ made
  | 0, made, slots, slots', os, h => by simp
  | n + 1, made, [], slots', os, h => by simp [decodeSlots] at h
  | n + 1, made, s :: r, slots', os, h => by
      obtain ⟨s', os1, made', r', os2, h1, h2, rfl, rfl, hf, hf'⟩ := decodeSlots_cons h
      obtain ⟨ih1, ih2⟩ := folders_nodup n made' r r' os2 h2
      rw [List.take_succ_cons, List.filterMap_cons]
      cases hfo : folderOf E s with
      | none =>
        rw [hf' hfo] at ih2
        exact ⟨ih1, ih2⟩
      | some f =>
        obtain ⟨hm, rfl⟩ := hf f hfo
        refine ⟨List.nodup_cons.mpr ⟨fun hc => ih2 f hc List.mem_cons_self, ih1⟩, ?_⟩
        intro g hg
        rcases List.mem_cons.mp hg with rfl | hg
        · exact hm
        · exact fun hc => ih2 g hg (List.mem_cons_of_mem _ hc)

/-! ### what is lost without filling -/

theorem items_differ {E : Env} {ty : Text} : ∀ (n : Nat) (items items' : List Val) (os : List Obj),
    decodeItems E false ty n items = some (items', os) → (∃ o ∈ os, ∃ l, o.orig = .list l) → items' ≠ items
  | 0, items, items', os, h, ⟨o, ho, _⟩ => by
      simp only [decodeItems, Option.some.injEq, Prod.mk.injEq] at h
      rw [← h.2] at ho; cases ho
  | n + 1, [], items', os, h, _ => by simp [decodeItems] at h
  | n + 1, .str s :: r, items', os, h, ⟨o, ho, l, hl⟩ => by
      simp only [decodeItems, Option.map_eq_some_iff, Prod.mk.injEq] at h
      obtain ⟨p, h1, h2, h3⟩ := h
      rw [← h3] at ho
      rcases List.mem_cons.mp ho with rfl | ho
      · cases hl
      · rw [← h2]
        exact fun hc => items_differ n r p.1 p.2 h1 ⟨o, ho, l, hl⟩ (List.cons.inj hc).2
  | n + 1, .none :: r, items', os, h, ⟨o, ho, l, hl⟩ => by
      simp only [decodeItems, Option.map_eq_some_iff, Prod.mk.injEq] at h
      obtain ⟨p, h1, h2, h3⟩ := h
      rw [← h3] at ho
      rw [← h2]
      exact fun hc => items_differ n r p.1 p.2 h1 ⟨o, ho, l, hl⟩ (List.cons.inj hc).2
  | n + 1, .list k :: r, items', os, h, ⟨o, ho, l, hl⟩ => by
      simp only [decodeItems] at h
      cases hh : E.handler ty with
      | missing =>
        simp only [hh, Option.map_eq_some_iff, Prod.mk.injEq] at h
        obtain ⟨p, h1, h2, h3⟩ := h
        rw [← h3] at ho
        rw [← h2]
        exact fun hc => items_differ n r p.1 p.2 h1 ⟨o, ho, l, hl⟩ (List.cons.inj hc).2
      | outside => simp [hh] at h
      | inside =>
        simp only [hh] at h
        cases hi : E.ident ty (.list k) with
        | none => simp [hi] at h
        | some u =>
          simp only [hi, Option.map_eq_some_iff, Prod.mk.injEq, Bool.false_eq_true, if_false] at h
          obtain ⟨p, h1, h2, h3⟩ := h
          rw [← h2]
          intro hc
          cases (List.cons.inj hc).1

theorem slot_differs {E : Env} {s s' : Val} {os : List Obj} (h : decodeSlot E false s = some (s', os))
    (ho : ∃ o ∈ os, ∃ l, o.orig = .list l) : s' ≠ s := by
  match s, h with
  | .list (t :: .str n :: items), h =>
    simp only [decodeSlot] at h
    cases hn : parseInt n with
    | none => simp [hn] at h
    | some c =>
      simp only [hn] at h
      cases hty : typeOf E t with
      | none =>
        simp only [hty] at h
        by_cases hc : c ≠ 0 ∧ items = []
        · rw [if_pos hc] at h; cases h
        · rw [if_neg hc] at h
          simp only [Option.some.injEq, Prod.mk.injEq] at h
          obtain ⟨o, hm, _⟩ := ho
          rw [← h.2] at hm; cases hm
      | some ty =>
        simp only [hty] at h
        by_cases hc : c = 0
        · rw [if_pos hc] at h
          simp only [Option.some.injEq, Prod.mk.injEq] at h
          obtain ⟨o, hm, _⟩ := ho
          rw [← h.2] at hm; cases hm
        · rw [if_neg hc] at h
          simp only [Option.map_eq_some_iff, Bool.false_eq_true, false_and, if_false, Prod.mk.injEq] at h
          obtain ⟨p, h1, h2, h3⟩ := h
          rw [← h3] at ho
          have := items_differ _ _ p.1 p.2 h1 ho
          rw [← h2]
          intro hc
          injection hc with hc
          exact this (List.cons.inj (List.cons.inj hc).2).2

theorem slots_differ {E : Env} : ∀ (n : Nat) (made : List Text) (slots slots' : List Val) (os : List Obj),
    decodeSlots E false made n slots = some (slots', os) → (∃ o ∈ os, ∃ l, o.orig = .list l) → slots' ≠ slots
  | 0, made, slots, slots', os, h, ⟨o, ho, _⟩ => by
      simp only [decodeSlots, Option.some.injEq, Prod.mk.injEq] at h
      rw [← h.2] at ho; cases ho
  | n + 1, made, [], slots', os, h, _ => by simp [decodeSlots] at h
  | n + 1, made, s :: r, slots', os, h, ⟨o, ho, l, hl⟩ => by
      obtain ⟨s', os1, made', r', os2, h1, h2, rfl, rfl, _, _⟩ := decodeSlots_cons h
      intro hc
      rcases List.mem_append.mp ho with ho | ho
      · exact slot_differs h1 ⟨o, ho, l, hl⟩ (List.cons.inj hc).1
      · exact slots_differ n made' r r' os2 h2 ⟨o, ho, l, hl⟩ (List.cons.inj hc).2

/-- in automatic mode the type name of every object found stands in its list's place -/
theorem slots_auto_names {E : Env} : ∀ (n : Nat) (made : List Text) (slots slots' : List Val) (os : List Obj),
    decodeSlots E true made n slots = some (slots', os) → (∀ s ∈ slots, Tidy E s) → ∀ o ∈ os, Val.str o.ty ∈ slots'
  | 0, made, slots, slots', os, h, _ => by
      simp only [decodeSlots, Option.some.injEq, Prod.mk.injEq] at h
      intro o ho; rw [← h.2] at ho; cases ho
  | n + 1, made, [], slots', os, h, _ => by simp [decodeSlots] at h
  | n + 1, made, s :: r, slots', os, h, ht => by
      obtain ⟨s', os1, made', r', os2, h1, h2, rfl, rfl, _, _⟩ := decodeSlots_cons h
      intro o ho
      rcases List.mem_append.mp ho with ho | ho
      · rcases slot_auto h1 (ht s List.mem_cons_self) with ⟨rfl, _, _, _⟩ | ⟨t, items, ty, _, _, _, rfl, _, _, hty⟩
        · cases ho
        · rw [hty o ho]; exact List.mem_cons_self
      · exact List.mem_cons_of_mem _ (slots_auto_names n made' r r' os2 h2 (fun x hx => ht x (List.mem_cons_of_mem _ hx)) o ho)

/-- without objects nothing changes -/
theorem decodeSlot_none {E : Env} {s s' : Val} (h : decodeSlot E false s = some (s', [])) : s' = s := by
  match s, h with
  | .list (t :: .str n :: items), h =>
    simp only [decodeSlot] at h
    cases hn : parseInt n with
    | none => simp [hn] at h
    | some c =>
      simp only [hn] at h
      cases hty : typeOf E t with
      | none =>
        simp only [hty] at h
        by_cases hc : c ≠ 0 ∧ items = []
        · rw [if_pos hc] at h; cases h
        · rw [if_neg hc] at h
          simp only [Option.some.injEq, Prod.mk.injEq] at h
          exact h.1.symm
      | some ty =>
        simp only [hty] at h
        by_cases hc : c = 0
        · rw [if_pos hc] at h
          simp only [Option.some.injEq, Prod.mk.injEq] at h
          exact h.1.symm
        · rw [if_neg hc] at h
          simp only [Option.map_eq_some_iff, Bool.false_eq_true, false_and, if_false, Prod.mk.injEq] at h
          obtain ⟨p, h1, h2, h3⟩ := h
          have hp : p = (p.1, []) := by rw [← h3]
          rw [hp] at h1
          rw [← h2, decodeItems_none _ _ _ h1]

theorem decodeSlots_none {E : Env} : ∀ (n : Nat) (made : List Text) (slots slots' : List Val),
    decodeSlots E false made n slots = some (slots', []) → slots' = slots
  | 0, made, slots, slots', h => by
      simp only [decodeSlots, Option.some.injEq, Prod.mk.injEq] at h
      exact h.1.symm
  | n + 1, made, [], slots', h => by simp [decodeSlots] at h
  | n + 1, made, s :: r, slots', h => by
      obtain ⟨s', os1, made', r', os2, h1, h2, rfl, h3, _, _⟩ := decodeSlots_cons h
      obtain ⟨rfl, rfl⟩ := List.append_eq_nil_iff.mp h3.symm
      rw [decodeSlot_none h1, decodeSlots_none n made' r r' h2]

end V8.Nested
