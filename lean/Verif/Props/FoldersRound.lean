import Verif.Props.FoldersRoot
/-
C82: the lists of a product that was extracted with auto_include are ready for folders to come and go.
-/
namespace V8.Folders
open V8.Brace V8.Enc V8.JsonText V8.Header V8.Store V8.Tree V8.Product
open V8.Nested hiding Handler Env
open V8.Object hiding Cls
open V8.Misc (Cls)
open V8.Root (listPaths takeLists putLists listsIn rootIn frontIn versionsIn headerIn optionsIn conIn Apart Calm slotsAt ListsFit)
open V8.Edit (productClass)

/-! ### the lists of one include -/

/-- a list no object changes -/
def Fixed (E : V8.Nested.Env) (s : Val) : Prop := (∃ l, s = .list l) ∧ ∀ es : List Entry, (∀ e ∈ es, E.handler e.ty ≠ .missing) → fillSlot E es s = some s

theorem slot_taken {E : V8.Nested.Env} {s s' : Val} {os : List Obj} (h : decodeSlot E true s = some (s', os)) (ht : Tidy E s) :
    (os = [] ∧ folderOf E s = none ∧ Fixed E s') ∨ (∃ t ty, typeOf E t = some ty ∧ folderOf E s = some ty ∧ s' = .str ty ∧ os ≠ [] ∧ ∀ o ∈ os, o.ty = ty) := by
  rcases slot_auto h ht with ⟨h1, h2, h3, h4⟩ | ⟨t, items, ty, _, h2, h3, h4, _, h6, h7⟩
  · refine .inl ⟨h1, h3, ?_⟩
    subst h2
    refine ⟨?_, h4⟩
    cases s' with
    | none => simp [decodeSlot] at h
    | str _ => simp [decodeSlot] at h
    | list l => exact ⟨l, rfl⟩
  · exact .inr ⟨t, ty, h2, h3, h4, h6, h7⟩

theorem slots_taken {E : V8.Nested.Env} : ∀ (n : Nat) (made : List Text) (slots slots' : List Val) (os : List Obj), decodeSlots E true made n slots = some (slots', os) →
    (∀ s ∈ slots, Tidy E s) → slots.length ≤ n → slots'.length = slots.length ∧
      (∀ (i : Nat) (s : Val), slots'[i]? = some s → (∃ ty, s = Val.str ty ∧ ty ∉ made ∧ ∃ o ∈ os, o.ty = ty) ∨ Fixed E s) ∧
      (∀ (i i' : Nat) (ty : Text), slots'[i]? = some (Val.str ty) → slots'[i']? = some (Val.str ty) → i = i') ∧
      ∀ o ∈ os, (∃ i : Nat, slots'[i]? = some (Val.str o.ty)) ∧ ∃ t, typeOf E t = some o.ty
  | 0, made, slots, slots', os, h, _, hl => by
    simp only [decodeSlots, Option.some.injEq, Prod.mk.injEq] at h
    obtain ⟨rfl, rfl⟩ := h
    have : slots = [] := List.length_eq_zero_iff.mp (by omega)
    subst this
    exact ⟨rfl, fun i s hs => (by simp at hs), fun i i' ty hs => (by simp at hs), fun o ho => (by cases ho)⟩
  | n + 1, made, [], slots', os, h, _, _ => by simp [decodeSlots] at h
  | n + 1, made, s :: r, slots', os, h, ht, hl => by
    obtain ⟨s', os1, made', r', os2, h1, h2, rfl, rfl, hf, hf'⟩ := decodeSlots_cons h
    obtain ⟨i1, i2, i3, i4⟩ := slots_taken n made' r r' os2 h2 (fun x hx => ht x (List.mem_cons_of_mem _ hx)) (by simpa using hl)
    rcases slot_taken h1 (ht s List.mem_cons_self) with ⟨rfl, hfo, hfx⟩ | ⟨t, ty, hty, hfo, rfl, hne, hall⟩
    · obtain rfl := hf' hfo
      refine ⟨by simp [i1], ?_, ?_, ?_⟩
      · intro i z hz
        cases i with
        | zero => cases hz; exact .inr hfx
        | succ i => exact i2 i z (by simpa using hz)
      · intro i i' ty hz hz'
        obtain ⟨⟨l, rfl⟩, _⟩ := hfx
        cases i with
        | zero => simp at hz
        | succ i =>
          cases i' with
          | zero => simp at hz'
          | succ i' => rw [i3 i i' ty (by simpa using hz) (by simpa using hz')]
      · intro o ho
        obtain ⟨⟨i, hi⟩, g⟩ := i4 o ho
        exact ⟨⟨i + 1, by simpa using hi⟩, g⟩
    · obtain ⟨hnm, rfl⟩ := hf ty hfo
      refine ⟨by simp [i1], ?_, ?_, ?_⟩
      · intro i z hz
        cases i with
        | zero =>
          cases hz
          obtain ⟨o, ho⟩ := List.exists_mem_of_ne_nil _ hne
          exact .inl ⟨ty, rfl, hnm, o, List.mem_append_left _ ho, hall o ho⟩
        | succ i =>
          rcases i2 i z (by simpa using hz) with ⟨ty', g1, g2, o, g3, g4⟩ | g
          · exact .inl ⟨ty', g1, fun hm => g2 (List.mem_cons_of_mem _ hm), o, List.mem_append_right _ g3, g4⟩
          · exact .inr g
      · intro i i' ty' hz hz'
        have later : ∀ i : Nat, r'[i]? ≠ some (Val.str ty) := by
          intro i hi
          rcases i2 i _ hi with ⟨ty', g1, g2, _⟩ | ⟨⟨l, g⟩, _⟩
          · cases g1; exact g2 List.mem_cons_self
          · cases g
        cases i with
        | zero =>
          have : ty = ty' := by simpa using hz
          subst this
          cases i' with
          | zero => rfl
          | succ i' => exact absurd (by simpa using hz') (later i')
        | succ i =>
          cases i' with
          | zero =>
            have : ty = ty' := by simpa using hz'
            subst this
            exact absurd (by simpa using hz) (later i)
          | succ i' => rw [i3 i i' ty' (by simpa using hz) (by simpa using hz')]
      · intro o ho
        rcases List.mem_append.mp ho with ho | ho
        · rw [hall o ho]
          exact ⟨⟨0, rfl⟩, t, hty⟩
        · obtain ⟨⟨i, hi⟩, g⟩ := i4 o ho
          exact ⟨⟨i + 1, by simpa using hi⟩, g⟩

/-! ### all lists -/

theorem lists_taken {E : V8.Nested.Env} : ∀ (ps : List (List Nat)) (made : List Text) (v t : Val) (os : List Obj), takeLists E true made ps v = some (t, os) →
    (∀ p ∈ ps, ∀ s ∈ slotsAt v p, Tidy E s) → (∀ p ∈ ps, getAt v (p ++ [2]) = some (.str (V8.Dec.showNat (slotsAt v p).length))) → ps.Pairwise Apart →
      (∀ q ∈ ps, (slotsAt t q).length = (slotsAt v q).length) ∧
      (∀ q ∈ ps, ∀ (i : Nat) (s : Val), (slotsAt t q)[i]? = some s → (∃ ty, s = Val.str ty ∧ ty ∉ made ∧ ∃ o ∈ os, o.ty = ty) ∨ Fixed E s) ∧
      (∀ q ∈ ps, ∀ q' ∈ ps, ∀ (i i' : Nat) (ty : Text), (slotsAt t q)[i]? = some (Val.str ty) → (slotsAt t q')[i']? = some (Val.str ty) → q = q' ∧ i = i') ∧
      ∀ o ∈ os, (∃ q ∈ ps, ∃ i : Nat, (slotsAt t q)[i]? = some (Val.str o.ty)) ∧ ∃ t, typeOf E t = some o.ty
  | [], made, v, t, os, h, _, _, _ => by
    rw [takeLists] at h
    cases h
    exact ⟨fun _ hq => (by cases hq), fun _ hq => (by cases hq), fun _ hq => (by cases hq), fun _ ho => (by cases ho)⟩
  | p :: ps, made, v, t, os, h, htidy, hcount, hpw => by
    obtain ⟨inc, inc', os1, v1, os2, hg, hd, hs, ht, rfl⟩ := V8.Root.takeLists_cons h
    obtain ⟨hp1, hp2⟩ := List.pairwise_cons.mp hpw
    obtain ⟨a, b, n, c, slots, slots', rfl, hc, hds, rfl⟩ := V8.Root.decodeFrom_some hd
    have h1 : slotsAt v p = slots := slotsAt_drop hg
    have hn : n = V8.Dec.showNat slots.length := by
      have := hcount p List.mem_cons_self
      rw [V8.Root.getAt_append, hg, h1] at this
      simpa [getAt] using this
    have hcn : c.toNat = slots.length := by
      rw [hn, V8.Dec.parse_showNat] at hc
      cases hc
      exact Int.toNat_natCast _
    have hsame : ∀ q ∈ ps, slotsAt v1 q = slotsAt v q := fun q hq => slots_frame hs (hp1 q hq)
    have htid : ∀ s ∈ slots, Tidy E s := fun s hm => htidy p List.mem_cons_self s (h1 ▸ hm)
    obtain ⟨f1, f2, f3, f4⟩ := slots_taken _ _ _ _ _ hds htid (by omega)
    obtain ⟨g1, g2, g3, g4⟩ := lists_taken ps _ v1 t os2 ht (fun q hq s hm => htidy q (List.mem_cons_of_mem _ hq) s (hsame q hq ▸ hm))
      (fun q hq => by
        rw [V8.Root.getAt_append, getAt_frame _ _ _ _ _ hs (hp1 q hq).1 (hp1 q hq).2, ← V8.Root.getAt_append, hsame q hq]
        exact hcount q (List.mem_cons_of_mem _ hq)) hp2
    have htp : slotsAt t p = slots' := by
      have : getAt t p = getAt v1 p := V8.Root.takeLists_calm ps _ v1 t os2 ht (fun q hq => .inl (hp1 q hq).symm)
      rw [getAt_setAt _ _ _ _ hs] at this
      exact slotsAt_drop this
    have hfo : V8.Root.foldersOf E (a :: b :: .str n :: slots) = (slots.take c.toNat).filterMap (folderOf E) := by rw [V8.Root.foldersOf, hc]
    have hmade : ∀ (i : Nat) ty, slots'[i]? = some (Val.str ty) → ty ∈ V8.Root.foldersOf E (a :: b :: .str n :: slots) := by
      intro i ty hi
      rcases f2 i _ hi with ⟨ty', e, _, o, ho, rfl⟩ | ⟨⟨l, e⟩, _⟩
      · cases e
        rw [hfo]
        exact V8.Root.types_folders _ _ _ _ _ hds htid o ho
      · cases e
    have hlater : ∀ q ∈ ps, ∀ (i i' : Nat) ty, slots'[i]? = some (Val.str ty) → (slotsAt t q)[i']? ≠ some (Val.str ty) := by
      intro q hq i i' ty hi hi'
      rcases g2 q hq i' _ hi' with ⟨ty', e, hnm, _⟩ | ⟨⟨l, e⟩, _⟩
      · cases e
        exact hnm (List.mem_append_left _ (hmade i ty hi))
      · cases e
    refine ⟨?_, ?_, ?_, ?_⟩
    · intro q hq
      rcases List.mem_cons.mp hq with rfl | hq
      · rw [htp, h1, f1]
      · rw [g1 q hq, hsame q hq]
    · intro q hq i s hi
      rcases List.mem_cons.mp hq with rfl | hq
      · rw [htp] at hi
        rcases f2 i s hi with ⟨ty, e, hnm, o, ho, he⟩ | e
        · exact .inl ⟨ty, e, hnm, o, List.mem_append_left _ ho, he⟩
        · exact .inr e
      · rcases g2 q hq i s hi with ⟨ty, e, hnm, o, ho, he⟩ | e
        · exact .inl ⟨ty, e, fun hm => hnm (List.mem_append_right _ hm), o, List.mem_append_right _ ho, he⟩
        · exact .inr e
    · intro q hq q' hq' i i' ty hi hi'
      rcases List.mem_cons.mp hq with rfl | hm <;> rcases List.mem_cons.mp hq' with rfl | hm'
      · rw [htp] at hi hi'
        exact ⟨rfl, f3 i i' ty hi hi'⟩
      · rw [htp] at hi
        exact absurd hi' (hlater q' hm' i i' ty hi)
      · rw [htp] at hi'
        exact absurd hi (hlater q hm i' i ty hi')
      · exact g3 q hm q' hm' i i' ty hi hi'
    · intro o ho
      rcases List.mem_append.mp ho with ho | ho
      · obtain ⟨⟨i, hi⟩, g⟩ := f4 o ho
        exact ⟨⟨p, List.mem_cons_self, i, by rw [htp]; exact hi⟩, g⟩
      · obtain ⟨⟨q, hq, i, hi⟩, g⟩ := g4 o ho
        exact ⟨⟨q, List.mem_cons_of_mem _ hq, i, hi⟩, g⟩

theorem path_long {groups : List Text} {c : Cls} {h : Val} {ps : List (List Nat)} (hp : listPaths groups c h = some ps) : ∀ p ∈ ps, 2 ≤ p.length := by
  have main : ∀ g : Option (List (List Nat)), g = some ps → g = (match getAt h [0, 2] with
      | some (.str n) => (V8.Dec.parseInt n).bind (fun c => V8.Root.groupPaths groups h 0 c.toNat)
      | _ => none) → ∀ p ∈ ps, 2 ≤ p.length := by
    intro g hg he
    rw [hg] at he
    cases hn : getAt h [0, 2] with
    | none => simp [hn] at he
    | some a =>
      cases a with
      | none => simp [hn] at he
      | list _ => simp [hn] at he
      | str n =>
        simp only [hn] at he
        have he := he.symm
        rw [Option.bind_eq_some_iff] at he
        obtain ⟨m, _, hm⟩ := he
        intro p hmem
        obtain ⟨j, _, ⟨rfl, _⟩ | ⟨rfl, _⟩⟩ := V8.Root.groupPaths_shape _ _ _ hm p hmem <;> simp
  cases c with
  | processor =>
    cases hp
    intro p hm
    rw [List.mem_singleton] at hm
    subst hm
    simp
  | config => exact main _ hp rfl
  | extension => exact main _ hp rfl

/-- **C82, the header after extraction.**  The lists of a header that was taken apart with auto_include are ready for the objects of each type found in it. -/
theorem lists_ready {E : V8.Nested.Env} {groups : List Text} {c : Cls} {v t : Val} {os : List Obj} {ps : List (List Nat)} (hp : listPaths groups c v = some ps) (ht : takeLists E true [] ps v = some (t, os))
    (hf : ListsFit E v ps) : ∀ o ∈ os, ListsReady E o.ty t ps ∧ ∃ u, typeOf E u = some o.ty := by
  have hapart := V8.Root.listPaths_apart hp
  obtain ⟨g1, g2, g3, g4⟩ := lists_taken ps [] v t os ht hf.tidy hf.count hapart
  intro o ho
  obtain ⟨⟨q, hq, i, hi⟩, hty⟩ := g4 o ho
  refine ⟨⟨hapart, q, hq, i, path_long hp q hq, hi, ?_, ?_⟩, hty⟩
  · refine ⟨_, _, ?_, V8.Dec.parse_showNat (slotsAt v q).length, ?_⟩
    · rw [V8.Root.takeLists_calm ps _ v t os ht (q := q ++ [2]) ?_]
      · exact hf.count q hq
      · intro p hp'
        by_cases he : p = q
        · exact .inr ⟨2, [], by omega, by rw [he]⟩
        · refine .inl (apart_longer ?_)
          have := hapart
          rw [List.pairwise_iff_getElem] at this
          obtain ⟨a, ha, rfl⟩ := List.mem_iff_getElem.mp hp'
          obtain ⟨b, hb, rfl⟩ := List.mem_iff_getElem.mp hq
          rcases Nat.lt_trichotomy a b with h | h | h
          · exact this a b ha hb h
          · subst h; exact absurd rfl he
          · exact (this b a hb ha h).symm
    · have := (List.getElem?_eq_some_iff.mp hi).1
      rw [g1 q hq] at this
      simpa using this
  · intro q' hq' i' s hne hs
    rcases g2 q' hq' i' s hs with ⟨ty', rfl, _, _⟩ | hfx
    · refine .inl ⟨ty', rfl, ?_⟩
      rintro rfl
      obtain ⟨e1, e2⟩ := g3 q' hq' q hq i' i _ hs hi
      rcases hne with h | h
      · exact h e1
      · exact h e2
    · exact .inr hfx.2

/-! ### extracted sources -/

/-- what is found, with the folders made for it -/
theorem kids_found {f : Text → Val → Option (Info × V8.Tree.Dir)} : ∀ {os : List Obj} {subs : List (Text × Text × V8.Tree.Dir)}, extractKids f os = some subs →
    List.Forall₂ (fun o q => q.1 = o.ty ∧ ∃ info, q.2.1 = info.name ∧ f o.ty o.orig = some (info, q.2.2)) os subs
  | [], subs, h => by rw [extractKids] at h; cases h; exact .nil
  | o :: r, subs, h => by
    rw [extractKids] at h
    simp only [Option.bind_eq_some_iff, Option.map_eq_some_iff] at h
    obtain ⟨a, ha, b, hb, rfl⟩ := h
    exact .cons ⟨rfl, a.1, rfl, ha⟩ (kids_found hb)

/-- the folder `q` of the object `o` builds to one entry, which is the object as it was found -/
def Comes (K : Text → Option Handler) (ord : Text → List Entry → List Entry) (con : Option Text) (id : Text) (Q : Text → Val → Text × Node → Prop) (P : Entry → Prop) (o : Obj)
    (q : Text × Text × V8.Tree.Dir) : Prop :=
  ∃ z fs, buildDir K ord con id q.1 q.2.1 q.2.2 = some ([z], fs) ∧ z.ty = q.1 ∧ z.nm = q.2.1 ∧ z.ty = o.ty ∧ z.data = o.orig ∧ P z ∧ ∀ p, p ∈ fs ↔ Q o.ty o.orig p

theorem subs_come {K : Text → Option Handler} {ord : Text → List Entry → List Entry} {con : Option Text} {id : Text} {Q : Text → Val → Text × Node → Prop} {P : Entry → Prop} {os : List Obj}
    {L : List (Text × Text × V8.Tree.Dir)} (h : List.Forall₂ (Comes K ord con id Q P) os L) : ∃ es kf, buildSubs K ord con id (.ofList L) = some (es, kf) ∧
      es.map (fun e => (e.ty, e.nm)) = L.map (fun q => (q.1, q.2.1)) ∧ es.map (fun e => (e.ty, e.data)) = os.map (fun o => (o.ty, o.orig)) ∧ ∀ z ∈ es, P z := by
  induction h with
  | nil => exact ⟨[], [], by rw [Subs.ofList, buildSubs], rfl, rfl, fun z hz => (by cases hz)⟩
  | @cons o q os L hq _ ih =>
    obtain ⟨es, kf, h1, h2, h3, h4⟩ := ih
    obtain ⟨z, fs, g1, g2, g3, g4, g5, g6, _⟩ := hq
    obtain ⟨qt, qn, qd⟩ := q
    refine ⟨z :: es, fs ++ kf, ?_, ?_, ?_, ?_⟩
    · rw [Subs.ofList, buildSubs]
      simp only at g1
      rw [g1, h1]
      rfl
    · simp only [List.map_cons, h2, g2, g3]
    · rw [List.map_cons, List.map_cons, h3, g4, g5]
    · intro w hw
      rcases List.mem_cons.mp hw with rfl | hw
      · exact g6
      · exact h4 w hw

theorem some_objects {α β : Type} {R : α → β → Prop} : ∀ {l : List β}, (∀ q ∈ l, ∃ o, R o q) → ∃ os, List.Forall₂ R os l
  | [], _ => ⟨[], .nil⟩
  | q :: l, h => by
    obtain ⟨o, ho⟩ := h q List.mem_cons_self
    obtain ⟨os, hos⟩ := some_objects (l := l) (fun q hq => h q (List.mem_cons_of_mem _ hq))
    exact ⟨o :: os, .cons ho hos⟩

theorem object_of {α β : Type} {R : α → β → Prop} {os : List α} {l : List β} (h : List.Forall₂ R os l) : ∀ q ∈ l, ∃ o ∈ os, R o q := by
  induction h with
  | nil => intro q hq; cases hq
  | cons h _ ih =>
    intro q hq
    rcases List.mem_cons.mp hq with rfl | hq
    · exact ⟨_, List.mem_cons_self, h⟩
    · obtain ⟨o, ho, hr⟩ := ih q hq
      exact ⟨o, List.mem_cons_of_mem _ ho, hr⟩

theorem all_with {α β : Type} {R S : α → β → Prop} {os : List α} {l : List β} (h : List.Forall₂ R os l) (hi : ∀ o ∈ os, ∀ q, R o q → S o q) : List.Forall₂ S os l := by
  induction h with
  | nil => exact .nil
  | cons h _ ih => exact .cons (hi _ List.mem_cons_self _ h) (ih (fun o ho => hi o (List.mem_cons_of_mem _ ho)))

/-- the files of one object and of everything nested in it -/
def ItsFiles (C : Text → Option Class) (E : V8.Nested.Env) (F : Text → Option Node) (ty : Text) (v : Val) (p : Text × Node) : Prop :=
  (p.1 ∈ own C ty v ∨ ∃ con' ty' v', Inside C E F ty v con' ty' v' ∧ p.1 ∈ own C ty' v') ∧ F p.1 = some p.2

/-- the sources of an extracted product -/
structure Taken (C : Text → Option Class) (g : V8.FormObj.Lim) (e : V8.Root.Env) (c : Cls) (ver : Text) (F : Text → Option Node) (ord : Text → List Entry → List Entry)
    (nm : Val → Text) (dh : List (List Val)) (file u fu : Text) (src : List (Place Node)) (subs : List (Text × Text × V8.Tree.Dir)) (ps : List (List Nat)) (t : Val) (j : JT) (os : List Obj) (o : Options) :
    Prop where
  paths : listPaths e.groups c (rootVal dh) = some ps
  taken : takeLists e.x.E true [] ps (rootVal dh) = some (t, os)
  read : SourcesOf e file src j c ver o u fu t
  kept : listPaths e.groups c t = some ps
  version : o.productVersion = V8.Root.versionOf e c dh
  con : conIn c j = V8.Root.conHeader c (rootVal dh)
  folders : (subs.map (fun s => (s.1, s.2.1))).Nodup
  kids : List.Forall₂ (Comes (handlers C g e.x { e.y with prod := o.productVersion } ver) ord (conIn c j) (V8.Root.kindOf c).name (ItsFiles C e.x.E F)
    (fun z => e.y.E.handler z.ty ≠ .missing ∧ z.nm = nm z.data)) os subs
  listed : ∀ ob ∈ os, V8.Root.InProduct e c dh ob.ty ob.orig

theorem extracted (types : List (Text × Text)) (C : Text → Option Class) (g : V8.FormObj.Lim) (e : V8.Root.Env) (c : Cls) (ver : Text) (F : Text → Option Node)
    (ord : Text → List Entry → List Entry) (nm : Val → Text) (n : Nat) (info : Info) (src : List (Place Node)) (subs : List (Text × Text × V8.Tree.Dir)) (file fu u : Text)
    (dr dh : List (List Val)) (hC : ClassesOk C) (hE : e.x.E = envOf types C) (hy : e.y.E = e.x.E) (hp : e.y.p = e.x.p) (hau : e.x.auto = true)
    (hv0 : e.x.valid [] = false) (hT : ∀ u, e.types u ≠ some "ConfigurationExtension".toList) (hsame : V8.Misc.checkVersion e.tool e.tool = .ok ())
    (hord : ∀ id l, (ord id l).Perm l) (hd : V8.Root.detect e F = some (c, ver))
    (hx : V8.Root.extractProduct e (handlers C g e.x e.y ver) c ver F n = some (info, .mk src (.ofList subs))) (hok : V8.Root.ProductOk e c ver F file fu u dr dh)
    (hin : V8.Root.InnerOk types C g e c ver F nm dh) :
    ∃ ps t j os o, Taken C g e c ver F ord nm dh file u fu src subs ps t j os o := by
  unfold V8.Root.extractProduct at hx
  simp only [Option.bind_eq_some_iff] at hx
  obtain ⟨⟨info', os, src0⟩, hroot, subs0, hsubs, hx⟩ := hx
  by_cases hnod : (subs0.map (fun s => (s.1, s.2.1))).Nodup
  case neg => rw [if_neg hnod] at hx; cases hx
  rw [if_pos hnod] at hx
  simp only [Option.some.injEq, Prod.mk.injEq, V8.Tree.Dir.mk.injEq] at hx
  obtain ⟨rfl, rfl, hx⟩ := hx
  obtain rfl := ofList_inj hx
  obtain ⟨ps, t, j, b, hps, ht, hu, b1, b2, b3, b4, ⟨o, b6, b7, b10, b11, b12, b13⟩, b8, b9, _⟩ := V8.Root.root_back hok hd hT hsame hroot
  rw [hau] at ht
  have hfit := hin.lists ps hps
  have hapart := V8.Root.listPaths_apart hps
  have hlisted := V8.Root.takeLists_listed _ _ _ _ _ ht hfit.tidy hfit.count hapart
  have hkid : ∀ ob ∈ os, V8.Root.InProduct e c dh ob.ty ob.orig := by
    intro ob hob
    refine ⟨ps, hps, ?_⟩
    rw [← hlisted]
    exact List.mem_map.mpr ⟨ob, hob, rfl⟩
  have hbld : { e.y with prod := o.productVersion } = V8.Root.bldOf e c dh := by unfold V8.Root.bldOf; rw [b7]
  rw [show extractTree (handlers C g e.x e.y ver) F n = extractTree (handlers C g e.x (V8.Root.bldOf e c dh) ver) F n from
    funext fun co => funext fun a => funext fun b => extractTree_congr (handlers_out C g e.x e.y (V8.Root.bldOf e c dh) ver) n co a b, b8] at hsubs
  refine ⟨ps, t, j, os, o, hps, ht, ?_, V8.Root.listPaths_kept hps hok.six ht, b7, b9, hnod, ?_, hkid⟩
  · exact ⟨⟨_, b, by rw [fileIn_folder]; exact b1, by rw [fileIn_folder]; exact b2, b3⟩, by unfold productClass; exact b4, by rw [fileIn_folder]; exact b6, b13, b10, t, b11, b12⟩
  · rw [hbld, b9]
    refine all_with (kids_found hsubs) ?_
    rintro ob hob ⟨qt, qn, qd⟩ ⟨hq1, oi, hq2, hq3⟩
    simp only at hq1 hq2 hq3
    subst hq1 hq2
    have h1 := hkid ob hob
    obtain ⟨fs, g1, g2⟩ := C61_listed types C g e.x (V8.Root.bldOf e c dh) ver F ord nm n (V8.Root.conHeader c (rootVal dh)) ob.ty ob.orig (V8.Root.kindOf c).name oi qd qd (fun _ S S' => S' = S)
      (steady_eq _ _) (like_refl _ (fun _ S S' => S' = S) (fun _ _ => rfl) qd _) hC hE hy hp hv0 hord hq3 (hin.fit _ _ h1)
      (fun con' ty' v' hi => hin.deep _ _ _ _ _ h1 hi) (fun hau => ⟨(hin.auto hau).1, (hin.auto hau).2 _ _ h1⟩)
    obtain ⟨k, q, hk, hq, he⟩ := V8.Root.extractTree_root hq3
    refine ⟨_, fs, g1, rfl, rfl, rfl, rfl, ⟨?_, ?_⟩, fun p => g2 p.1 p.2⟩
    · rw [hy, hE]
      exact handler_real (g := g) (x := e.x) (y := V8.Root.bldOf e c dh) (ver := ver) (by simp only; rw [hk]; rfl)
    · simp only at he ⊢
      rw [he]
      exact ((hin.auto hau).2 _ _ h1).1.name k _ q hk hq

/-- the header comes back -/
theorem lists_back {types : List (Text × Text)} {C : Text → Option Class} {g : V8.FormObj.Lim} {e : V8.Root.Env} {c : Cls} {ver : Text} {F : Text → Option Node}
    {ord : Text → List Entry → List Entry} {nm : Val → Text} {file u fu : Text} {src : List (Place Node)} {subs : List (Text × Text × V8.Tree.Dir)} {ps : List (List Nat)} {t : Val} {j : JT} {os : List Obj}
    {o : Options} {dh : List (List Val)} (hT : Taken C g e c ver F ord nm dh file u fu src subs ps t j os o) (hE : e.x.E = envOf types C) (hy : e.y.E = e.x.E) (hau : e.x.auto = true)
    (ha : e.y.auto = e.x.auto) (hord : ∀ id l, (ord id l).Perm l) (hin : V8.Root.InnerOk types C g e c ver F nm dh) {es : List Entry} (hne : es ≠ [])
    (hdata : es.map (fun e => (e.ty, e.data)) = os.map (fun o => (o.ty, o.orig))) (hP : ∀ z ∈ es, e.y.E.handler z.ty ≠ .missing ∧ z.nm = nm z.data) (id : Text) :
    listsIn e c (ord id es) t = some (rootVal dh) := by
  have hfit := hin.lists ps hT.paths
  have hapart := V8.Root.listPaths_apart hT.paths
  have hemp : ord id es ≠ [] := by
    intro h
    have := hord id es
    rw [h] at this
    exact hne this.nil_eq.symm
  unfold listsIn
  rw [if_neg (by rw [ha, hau]; simp [hemp]), hT.kept, Option.bind_some, hy]
  refine V8.Root.putLists_takeLists (nm := nm) ?_ ?_ ?_ ps [] (rootVal dh) t os hT.taken hfit.tidy (hin.order hau ps hT.paths) hapart ?_
  · intro en hen
    rw [← hy]
    exact (hP en ((hord _ _).mem_iff.mp hen)).1
  · rw [hE]
    exact uuidOf_nameOf (hin.auto hau).1
  · intro en hen
    exact (hP en ((hord _ _).mem_iff.mp hen)).2
  · intro ob _
    have hperm : ((ord id es).map (fun e => (e.ty, e.data))).Perm (os.map (fun o => (o.ty, o.orig))) := by
      rw [← hdata]
      exact (hord _ _).map _
    have h1 := (hperm.filter (fun p => decide (p.1 = ob.ty))).map (·.2)
    rw [List.filter_map, List.filter_map, List.map_map, List.map_map] at h1
    exact h1

/-- the identifier of a type that was found -/
theorem type_found {types : List (Text × Text)} {C : Text → Option Class} {E : V8.Nested.Env} (hE : E = envOf types C) (hn : (types.map (·.2)).Nodup) {ty : Text} (h : ∃ u, typeOf E u = some ty) :
    ∃ U, E.nameOf U = some ty ∧ E.uuidOf ty = some U := by
  obtain ⟨u, hu⟩ := h
  cases u with
  | none => cases hu
  | list _ => cases hu
  | str U =>
    refine ⟨U, hu, ?_⟩
    subst hE
    exact uuidOf_nameOf hn U ty hu

/-! ### C82 -/

theorem names_middle {α β : Type} (f : α → β) {l r : List α} {x : α} (h : ((l ++ x :: r).map f).Nodup) : (f x :: (l ++ r).map f).Nodup := by
  have := (List.perm_middle (a := x) (l₁ := l) (l₂ := r)).map f
  rw [List.map_cons] at this
  exact this.nodup_iff.mp h

/-- **C82, an object is removed.**  A product is extracted with auto_include and the folder of one of the objects listed in the product is deleted, not the last one.  The build succeeds, and what it
writes is the product without the files of this object and of everything nested in it; in the header the object is taken off the list of its type, and the number of objects there is one less. -/
theorem C82_extract_remove_build (types : List (Text × Text)) (C : Text → Option Class) (g : V8.FormObj.Lim) (e : V8.Root.Env) (c : Cls) (ver : Text) (F : Text → Option Node)
    (ord : Text → List Entry → List Entry) (shuf : List Text → List Text) (nm : Val → Text) (n : Nat) (info : Info) (src : List (Place Node)) (l r : List (Text × Text × V8.Tree.Dir))
    (xty xnm : Text) (xd : V8.Tree.Dir) (file fu u : Text) (dr dh : List (List Val))
    (hC : ClassesOk C) (hE : e.x.E = envOf types C) (hy : e.y.E = e.x.E) (hp : e.y.p = e.x.p) (hau : e.x.auto = true) (ha : e.y.auto = e.x.auto)
    (hv0 : e.x.valid [] = false) (hT : ∀ u, e.types u ≠ some "ConfigurationExtension".toList) (hsame : V8.Misc.checkVersion e.tool e.tool = .ok ())
    (hord : ∀ id l, (ord id l).Perm l) (hshuf : ∀ l, (shuf l).Perm l) (hd : V8.Root.detect e F = some (c, ver))
    (hx : V8.Root.extractProduct e (handlers C g e.x e.y ver) c ver F n = some (info, .mk src (.ofList (l ++ (xty, xnm, xd) :: r)))) (hok : V8.Root.ProductOk e c ver F file fu u dr dh)
    (hin : V8.Root.InnerOk types C g e c ver F nm dh) (hne : l ++ r ≠ []) :
    ∃ files files' fX names U v d,
      V8.Root.buildProduct e (fun v p => handlers C g e.x { e.y with prod := p } v) ord shuf file (.mk src (.ofList (l ++ (xty, xnm, xd) :: r))) = some (c, files) ∧
      V8.Root.buildProduct e (fun v p => handlers C g e.x { e.y with prod := p } v) ord shuf file (.mk src (.ofList (l ++ r))) = some (c, files') ∧
      V8.Root.InProduct e c dh xty v ∧ e.x.E.nameOf U = some xty ∧ GrownBy c e.y.win e.rnd fX fu d dh files' files ∧ OneMore U v (rootVal d) (rootVal dh) ∧
      (∀ x nd, (x, nd) ∈ fX ↔ (x ∈ own C xty v ∨ ∃ con' ty' v', Inside C e.x.E F xty v con' ty' v' ∧ x ∈ own C ty' v') ∧ F x = some nd) ∧
      (c ≠ .extension → names.Perm (files.map (·.1))) ∧
      ∀ x nd, (x, nd) ∈ files ↔ (V8.Root.NestedNames C e c F dh x ∧ F x = some nd) ∨ V8.Root.Written e c F u fu dr names x nd := by
  obtain ⟨files, names, w1, w2, w3⟩ := V8.Root.C62_product types C g e c ver F ord shuf nm n info _ file fu u dr dh hC hE hy hp ha hv0 hT hsame hord hshuf hd hx hok hin
  obtain ⟨ps, t, j, os, o, hK⟩ := extracted types C g e c ver F ord nm n info src _ file fu u dr dh hC hE hy hp hau hv0 hT hsame hord hd hx hok hin
  have hmem : (xty, xnm, xd) ∈ l ++ (xty, xnm, xd) :: r := List.mem_append_right _ List.mem_cons_self
  obtain ⟨ob, hob, z, fX, b1, b2, b3, b4, b5, b6, b7⟩ := object_of hK.kids _ hmem
  simp only at b1 b2 b3
  obtain ⟨hready, hfound⟩ := lists_ready hK.paths hK.taken (hin.lists ps hK.paths) ob hob
  obtain ⟨U, hU1, hU2⟩ := type_found hE (hin.auto hau).1 hfound
  have hnm := names_middle (fun s : Text × Text × V8.Tree.Dir => (s.1, s.2.1)) hK.folders
  have hes : ∀ es kf, buildSubs (handlers C g e.x { e.y with prod := o.productVersion } ver) ord (conIn c j) (V8.Root.kindOf c).name (.ofList (l ++ r)) = some (es, kf) →
      es ≠ [] ∧ ((z :: es).map (fun e => (e.ty, e.nm))).Nodup ∧ ∀ w ∈ z :: es, e.y.E.handler w.ty ≠ .missing := by
    intro es kf h
    obtain ⟨os', ho'⟩ := some_objects (R := Comes (handlers C g e.x { e.y with prod := o.productVersion } ver) ord (conIn c j) (V8.Root.kindOf c).name (ItsFiles C e.x.E F)
      (fun z => e.y.E.handler z.ty ≠ .missing ∧ z.nm = nm z.data)) (l := l ++ r) (fun q hq => by
        obtain ⟨o', _, h⟩ := object_of hK.kids q (by
          rcases List.mem_append.mp hq with hq | hq
          · exact List.mem_append_left _ hq
          · exact List.mem_append_right _ (List.mem_cons_of_mem _ hq))
        exact ⟨o', h⟩)
    obtain ⟨es', kf', k1, k2, _, k4⟩ := subs_come ho'
    rw [h] at k1
    cases k1
    refine ⟨?_, ?_, ?_⟩
    · intro h0
      rw [h0] at k2
      exact hne (List.map_eq_nil_iff.mp k2.symm)
    · rw [List.map_cons, k2, b2, b3]
      exact hnm
    · intro w hw
      rcases List.mem_cons.mp hw with rfl | hw
      · exact b6.1
      · exact (k4 w hw).1
  rw [hK.version] at hes
  have hgrown := product_grown e (fun v p => handlers C g e.x { e.y with prod := p } v) ord shuf file src l r xty xnm xd j c ver o u fu t z fX ps U hK.read (by rw [ha, hau]) hord hshuf b1
    (by rw [hK.version]; exact hes) hK.kept (by rw [b4, hy]; exact hready) (by rw [b4, hy]; exact hU2)
  rcases hgrown with ⟨files', files2, d, d', k1, k2, k3, k4, _, k5⟩ | ⟨_, k2⟩
  case inr => rw [w1] at k2; cases k2
  rw [w1] at k2
  cases k2
  obtain ⟨es, kf, s1, s2, s3, s4⟩ := subs_come hK.kids
  have hback := lists_back hK hE hy hau ha hord hin (es := es) (by
    intro h0
    rw [h0] at s2
    have := congrArg List.length s2
    simp at this) s3 s4 (V8.Root.kindOf c).name
  have hdd := k5 es kf s1
  rw [hback] at hdd
  have hdd' : d' = dh := by
    have := congrArg (fun v => v.bind rootOf) hdd
    simp only [Option.bind_some, rootOf_rootVal] at this
    exact (Option.some.inj this).symm
  subst hdd'
  rw [b5] at k4
  refine ⟨files, files', fX, names, U, ob.orig, d, w1, k1, ?_, ?_, k3, k4, ?_, w2, w3⟩
  · rw [← b2, b4]; exact hK.listed ob hob
  · rw [← b2, b4]; exact hU1
  · intro x nd
    have := b7 (x, nd)
    unfold ItsFiles at this
    rw [← b4, b2] at this
    exact this

/-- **C82, an object is added.**  A product is extracted with auto_include, and the folder of one object more, which builds by itself to the files `fX` and delivers the entry `y`, is put beside the
folders of the objects of its type (there is at least one).  The build succeeds, and what it writes is the product with the files `fX`, and in the header the object stands in the list of its type, with
the number of objects there one more. -/
theorem C82_extract_add_build (types : List (Text × Text)) (C : Text → Option Class) (g : V8.FormObj.Lim) (e : V8.Root.Env) (c : Cls) (ver : Text) (F : Text → Option Node)
    (ord : Text → List Entry → List Entry) (shuf : List Text → List Text) (nm : Val → Text) (n : Nat) (info : Info) (src : List (Place Node)) (l r : List (Text × Text × V8.Tree.Dir))
    (xnm : Text) (xd : V8.Tree.Dir) (y : Entry) (fX : List (Text × Node)) (file fu u : Text) (dr dh : List (List Val))
    (hC : ClassesOk C) (hE : e.x.E = envOf types C) (hy : e.y.E = e.x.E) (hp : e.y.p = e.x.p) (hau : e.x.auto = true) (ha : e.y.auto = e.x.auto)
    (hv0 : e.x.valid [] = false) (hT : ∀ u, e.types u ≠ some "ConfigurationExtension".toList) (hsame : V8.Misc.checkVersion e.tool e.tool = .ok ())
    (hord : ∀ id l, (ord id l).Perm l) (hshuf : ∀ l, (shuf l).Perm l) (hd : V8.Root.detect e F = some (c, ver))
    (hx : V8.Root.extractProduct e (handlers C g e.x e.y ver) c ver F n = some (info, .mk src (.ofList (l ++ r)))) (hok : V8.Root.ProductOk e c ver F file fu u dr dh)
    (hin : V8.Root.InnerOk types C g e c ver F nm dh)
    (hb : buildDir (handlers C g e.x (V8.Root.bldOf e c dh) ver) ord (V8.Root.conHeader c (rootVal dh)) (V8.Root.kindOf c).name y.ty xnm xd = some ([y], fX))
    (hsib : ∃ q ∈ l ++ r, q.1 = y.ty) (hnew : ∀ q ∈ l ++ r, q.1 = y.ty → q.2.1 ≠ y.nm) :
    ∃ files files' names U d,
      V8.Root.buildProduct e (fun v p => handlers C g e.x { e.y with prod := p } v) ord shuf file (.mk src (.ofList (l ++ r))) = some (c, files) ∧
      V8.Root.buildProduct e (fun v p => handlers C g e.x { e.y with prod := p } v) ord shuf file (.mk src (.ofList (l ++ (y.ty, xnm, xd) :: r))) = some (c, files') ∧
      e.x.E.nameOf U = some y.ty ∧ GrownBy c e.y.win e.rnd fX fu dh d files files' ∧ OneMore U y.data (rootVal dh) (rootVal d) ∧
      (c ≠ .extension → names.Perm (files.map (·.1))) ∧
      ∀ x nd, (x, nd) ∈ files ↔ (V8.Root.NestedNames C e c F dh x ∧ F x = some nd) ∨ V8.Root.Written e c F u fu dr names x nd := by
  obtain ⟨files, names, w1, w2, w3⟩ := V8.Root.C62_product types C g e c ver F ord shuf nm n info _ file fu u dr dh hC hE hy hp ha hv0 hT hsame hord hshuf hd hx hok hin
  obtain ⟨ps, t, j, os, o, hK⟩ := extracted types C g e c ver F ord nm n info src _ file fu u dr dh hC hE hy hp hau hv0 hT hsame hord hd hx hok hin
  obtain ⟨q, hq, hqt⟩ := hsib
  obtain ⟨ob, hob, z, _, _, b2, _, b4, _, b6, _⟩ := object_of hK.kids q hq
  have hty : ob.ty = y.ty := by rw [← b4, b2, hqt]
  obtain ⟨hready, hfound⟩ := lists_ready hK.paths hK.taken (hin.lists ps hK.paths) ob hob
  obtain ⟨U, hU1, hU2⟩ := type_found hE (hin.auto hau).1 hfound
  rw [hty] at hready hU1 hU2
  obtain ⟨es, kf, s1, s2, s3, s4⟩ := subs_come hK.kids
  have hes0 : es ≠ [] := by
    intro h0
    rw [h0] at s2
    have := List.map_eq_nil_iff.mp s2.symm
    rw [this] at hq
    cases hq
  have hes : ∀ es kf, buildSubs (handlers C g e.x { e.y with prod := o.productVersion } ver) ord (conIn c j) (V8.Root.kindOf c).name (.ofList (l ++ r)) = some (es, kf) →
      es ≠ [] ∧ ((y :: es).map (fun e => (e.ty, e.nm))).Nodup ∧ ∀ w ∈ y :: es, e.y.E.handler w.ty ≠ .missing := by
    intro es' kf' h
    rw [s1] at h
    cases h
    refine ⟨hes0, ?_, ?_⟩
    · rw [List.map_cons, s2, List.nodup_cons]
      refine ⟨?_, hK.folders⟩
      intro hm
      obtain ⟨q', hq', he⟩ := List.mem_map.mp hm
      simp only [Prod.mk.injEq] at he
      exact hnew q' hq' he.1 he.2
    · intro w hw
      rcases List.mem_cons.mp hw with rfl | hw
      · rw [← hty, ← b4]; exact b6.1
      · exact (s4 w hw).1
  have hbld : { e.y with prod := o.productVersion } = V8.Root.bldOf e c dh := by unfold V8.Root.bldOf; rw [hK.version]
  have hgrown := product_grown e (fun v p => handlers C g e.x { e.y with prod := p } v) ord shuf file src l r y.ty xnm xd j c ver o u fu t y fX ps U hK.read (by rw [ha, hau]) hord hshuf
    (by simp only; rw [hbld, hK.con]; exact hb) hes hK.kept (by rw [hy]; exact hready) (by rw [hy]; exact hU2)
  rcases hgrown with ⟨files2, files', d, d', k1, k2, k3, k4, k5, _⟩ | ⟨k1, _⟩
  case inr => rw [w1] at k1; cases k1
  rw [w1] at k1
  cases k1
  have hback := lists_back hK hE hy hau ha hord hin hes0 s3 s4 (V8.Root.kindOf c).name
  have hdd := k5 es kf s1
  rw [hback] at hdd
  have hdd' : d = dh := by
    have := congrArg (fun v => v.bind rootOf) hdd
    simp only [Option.bind_some, rootOf_rootVal] at this
    exact (Option.some.inj this).symm
  subst hdd'
  exact ⟨files, files', names, U, d', w1, k2, hU1, k3, k4, w2, w3⟩

end V8.Folders
