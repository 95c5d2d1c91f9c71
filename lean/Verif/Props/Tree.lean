import Verif.Tree
import Verif.Props.Leaf
import Verif.Props.FormObj
/-
C61: a whole tree of objects comes back.
-/
namespace V8.Tree
open V8.Brace V8.Enc V8.JsonText V8.Header V8.Nested V8.Object V8.Store
open V8.Encode (lower)
open V8.Leaf (Leaf versionAt leafOut leafHas leafBack leafNames LeafFit leaf_back)
open V8.FormObj (FCls Lim formOut formHas formBack formNames FormFit form_back)

/-! ## any classes -/

/-- `ty' v'` is nested, at any depth, in `ty v`; `con`, `con'` are their parent_container_uuid -/
inductive Under (K : Text → Option Handler) (F : Text → Option Node) (con : Option Text) (ty : Text) (v : Val) : Option Text → Text → Val → Prop where
  | kid {h : Handler} {r : Info × List Obj × List (Place Node)} {o : Obj} (hk : K ty = some h) (ho : h.out con F v = some r) (hm : o ∈ r.2.1) :
      Under K F con ty v (h.con F v) o.ty o.orig
  | step {con1 : Option Text} {ty1 : Text} {v1 : Val} {h : Handler} {r : Info × List Obj × List (Place Node)} {o : Obj} (hu : Under K F con ty v con1 ty1 v1)
      (hk : K ty1 = some h) (ho : h.out con1 F v1 = some r) (hm : o ∈ r.2.1) : Under K F con ty v (h.con F v1) o.ty o.orig

theorem Under.trans {K : Text → Option Handler} {F : Text → Option Node} {con con1 con2 : Option Text} {ty ty1 ty2 : Text} {v v1 v2 : Val}
    (h1 : Under K F con ty v con1 ty1 v1) (h2 : Under K F con1 ty1 v1 con2 ty2 v2) : Under K F con ty v con2 ty2 v2 := by
  induction h2 with
  | kid hk ho hm => exact .step h1 hk ho hm
  | step _ hk ho hm ih => exact .step ih hk ho hm

/-- the nested objects deliver what stood in the lists -/
structure Hands (K : Text → Option Handler) (F : Text → Option Node) (con : Option Text) (es : List Entry) (os : List Obj) : Prop where
  found : ∀ o ∈ os, ∃ e ∈ es, e.ty = o.ty ∧ lower e.uu = lower o.uu
  same : ∀ o ∈ os, ∀ e ∈ es, e.ty = o.ty → lower e.uu = lower o.uu → e.data = o.orig
  real : ∀ e ∈ es, (K e.ty).isSome = true
  names : ∀ e ∈ es, ∃ h r, K e.ty = some h ∧ h.out con F e.data = some r ∧ e.nm = r.1.name ∧ e.uu = r.1.uuid
  exact : (es.map (fun e => (e.ty, e.data))).Perm (os.map (fun o => (o.ty, o.orig)))

/-- an object for itself comes back, whenever its nested objects deliver what stood in its lists: `own` are the names of its files -/
structure Comes (K : Text → Option Handler) (F : Text → Option Node) (h : Handler) (own : Text → Val → List Text) (con : Option Text) (parent ty : Text) (v : Val) : Prop where
  truthy : ∀ r, h.out con F v = some r → truthy v = true
  has : ∀ info os src, h.out con F v = some (info, os, src) → h.has (folder src) = true
  kids : ∀ info os src, h.out con F v = some (info, os, src) → h.kids = false → os = []
  back : ∀ info os src es, h.out con F v = some (info, os, src) → Hands K F (h.con F v) es os →
    ∃ files, h.back con parent es (folder src) = some (some ⟨info.uuid, info.name, v⟩, files) ∧
      ∀ n nd, (n, nd) ∈ files ↔ n ∈ own ty v ∧ F n = some nd
  ident : ∀ info os src, h.out con F v = some (info, os, src) → ∀ o ∈ os, ∀ h' r, K o.ty = some h' → h'.out (h.con F v) F o.orig = some r →
    lower r.1.uuid = lower o.uu
  uniq : ∀ info os src, h.out con F v = some (info, os, src) → ∀ o ∈ os, ∀ o' ∈ os, o.ty = o'.ty → lower o.uu = lower o'.uu → o.orig = o'.orig
  con : ∀ info os src, h.out con F v = some (info, os, src) → h.conBack (folder src) = h.con F v

theorem ofList_isNil (l : List (Text × Text × Dir)) : (Subs.ofList l).isNil = true ↔ l = [] := by
  cases l with
  | nil => exact ⟨fun _ => rfl, fun _ => rfl⟩
  | cons a r =>
    obtain ⟨ty, nm, d⟩ := a
    exact ⟨(fun h => by cases h), (fun h => by cases h)⟩

theorem ofList_inj : ∀ {l l' : List (Text × Text × Dir)}, Subs.ofList l = Subs.ofList l' → l = l'
  | [], [], _ => rfl
  | [], (_, _, _) :: _, h => by cases h
  | (_, _, _) :: _, [], h => by cases h
  | (t, n, d) :: l, (t', n', d') :: l', h => by
    rw [Subs.ofList, Subs.ofList] at h
    injection h with h1 h2 h3 h4
    rw [h1, h2, h3, ofList_inj h4]

/-- the source folder `d'` of an object of the type `ty` holds the same as `d`: its files are related by `R` (which is told whether nested objects are looked for), and the folders of its nested objects, which may
be listed in another order, hold the same; what is below an object that has no nested objects does not count -/
inductive Like (K : Text → Option Handler) (R : Bool → (Text → Option Node) → (Text → Option Node) → Prop) : Text → Dir → Dir → Prop where
  | simple {ty : Text} {h : Handler} {f f' : List (Place Node)} {s s' : Subs} (hk : K ty = some h) (hn : h.kids = false) (hf : R false (folder f) (folder f')) :
      Like K R ty (.mk f s) (.mk f' s')
  | full {ty : Text} {f f' : List (Place Node)} {l : List (Text × Text × Dir × Dir)} {l' : List (Text × Text × Dir)} (hn : ∀ h, K ty = some h → h.kids = true) (hf : R true (folder f) (folder f'))
      (hp : l'.Perm (l.map (fun q => (q.1, q.2.1, q.2.2.2)))) (hl : ∀ q ∈ l, Like K R q.1 q.2.2.1 q.2.2.2) :
      Like K R ty (.mk f (.ofList (l.map (fun q => (q.1, q.2.1, q.2.2.1))))) (.mk f' (.ofList l'))

/-- the same for the folders of nested objects -/
def LikeSubs (K : Text → Option Handler) (R : Bool → (Text → Option Node) → (Text → Option Node) → Prop) (s s' : Subs) : Prop :=
  ∃ (l : List (Text × Text × Dir × Dir)) (l' : List (Text × Text × Dir)), s = .ofList (l.map (fun q => (q.1, q.2.1, q.2.2.1))) ∧ s' = .ofList l' ∧
    l'.Perm (l.map (fun q => (q.1, q.2.1, q.2.2.2))) ∧ ∀ q ∈ l, Like K R q.1 q.2.2.1 q.2.2.2

mutual
theorem like_refl (K : Text → Option Handler) (R : Bool → (Text → Option Node) → (Text → Option Node) → Prop) (hR : ∀ k S, R k S S) : ∀ (d : Dir) (ty : Text), Like K R ty d d
  | .mk f s, ty => by
    by_cases hs : ∃ h, K ty = some h ∧ h.kids = false
    · obtain ⟨h, hk, hn⟩ := hs
      exact .simple hk hn (hR _ _)
    · obtain ⟨l, h1, h2, h3⟩ := likeSubs_refl K R hR s
      have := Like.full (K := K) (R := R) (ty := ty) (f := f) (f' := f) (l := l) (l' := l.map (fun q => (q.1, q.2.1, q.2.2.2)))
        (fun h hk => Bool.not_eq_false _ ▸ fun hn => hs ⟨h, hk, hn⟩) (hR _ _) (.refl _) h3
      rw [← h1, ← h2] at this
      exact this
theorem likeSubs_refl (K : Text → Option Handler) (R : Bool → (Text → Option Node) → (Text → Option Node) → Prop) (hR : ∀ k S, R k S S) : ∀ (s : Subs),
    ∃ l : List (Text × Text × Dir × Dir), s = .ofList (l.map (fun q => (q.1, q.2.1, q.2.2.1))) ∧ s = .ofList (l.map (fun q => (q.1, q.2.1, q.2.2.2))) ∧
      ∀ q ∈ l, Like K R q.1 q.2.2.1 q.2.2.2
  | .nil => ⟨[], rfl, rfl, fun q hq => by cases hq⟩
  | .cons ty nm d r => by
    obtain ⟨l, h1, h2, h3⟩ := likeSubs_refl K R hR r
    refine ⟨(ty, nm, d, d) :: l, ?_, ?_, ?_⟩
    · rw [List.map_cons, Subs.ofList, ← h1]
    · rw [List.map_cons, Subs.ofList, ← h2]
    · intro q hq
      rcases List.mem_cons.mp hq with rfl | hq
      · exact like_refl K R hR d ty
      · exact h3 q hq
end

theorem LikeSubs.refl (K : Text → Option Handler) (R : Bool → (Text → Option Node) → (Text → Option Node) → Prop) (hR : ∀ k S, R k S S) (s : Subs) : LikeSubs K R s s := by
  obtain ⟨l, h1, h2, h3⟩ := likeSubs_refl K R hR s
  exact ⟨l, _, h1, h2, .refl _, h3⟩

/-- the order in which the folders of nested objects are listed does not matter -/
theorem buildSubs_perm (K : Text → Option Handler) (ord : Text → List Entry → List Entry) (con : Option Text) (id : Text) {l l' : List (Text × Text × Dir)}
    (hp : l'.Perm l) : ∀ {es fs}, buildSubs K ord con id (.ofList l) = some (es, fs) →
    ∃ es' fs', buildSubs K ord con id (.ofList l') = some (es', fs') ∧ es'.Perm es ∧ fs'.Perm fs := by
  induction hp with
  | nil => intro es fs h; exact ⟨es, fs, h, .refl _, .refl _⟩
  | cons a _ ih =>
    intro es fs h
    obtain ⟨ty, nm, d⟩ := a
    rw [Subs.ofList, buildSubs] at h
    simp only [Option.bind_eq_some_iff, Option.map_eq_some_iff] at h
    obtain ⟨p, h1, q, h2, h3⟩ := h
    obtain ⟨es', fs', g1, g2, g3⟩ := ih h2
    cases h3
    refine ⟨p.1 ++ es', p.2 ++ fs', ?_, g2.append_left _, g3.append_left _⟩
    rw [Subs.ofList, buildSubs]
    simp only [h1, g1, Option.bind_some, Option.map_some]
  | swap a b l =>
    intro es fs h
    obtain ⟨ty, nm, d⟩ := a
    obtain ⟨ty', nm', d'⟩ := b
    rw [Subs.ofList, Subs.ofList, buildSubs, buildSubs] at h
    simp only [Option.bind_eq_some_iff, Option.map_eq_some_iff] at h
    obtain ⟨p, h1, q, ⟨p', h2, q', h3, h4⟩, h5⟩ := h
    cases h5
    cases h4
    refine ⟨p'.1 ++ (p.1 ++ q'.1), p'.2 ++ (p.2 ++ q'.2), ?_, ?_, ?_⟩
    · rw [Subs.ofList, Subs.ofList, buildSubs, buildSubs]
      simp only [h1, h2, h3, Option.bind_some, Option.map_some]
    · simp only
      rw [← List.append_assoc, ← List.append_assoc]
      exact List.perm_append_comm.append_right _
    · simp only
      rw [← List.append_assoc, ← List.append_assoc]
      exact List.perm_append_comm.append_right _
  | trans _ _ ih1 ih2 =>
    intro es fs h
    obtain ⟨es2, fs2, g1, g2, g3⟩ := ih2 h
    obtain ⟨es1, fs1, k1, k2, k3⟩ := ih1 g1
    exact ⟨es1, fs1, k1, k2.trans g2, k3.trans g3⟩

/-- the nested objects of an object, if each of them comes back, listed in any order -/
theorem kids_back (K : Text → Option Handler) (ord : Text → List Entry → List Entry) (con : Option Text) (id : Text) (f : Text → Val → Option (Info × Dir))
    (R : Bool → (Text → Option Node) → (Text → Option Node) → Prop) (Q : Text → Val → Text × Node → Prop) (os : List Obj) (subs : List (Text × Text × Dir)) (subs' : Subs)
    (hx : extractKids f os = some subs) (hlike : LikeSubs K R (.ofList subs) subs')
    (hf : ∀ o ∈ os, ∀ info dir dir', f o.ty o.orig = some (info, dir) → Like K R o.ty dir dir' →
      ∃ files, buildDir K ord con id o.ty info.name dir' = some ([⟨o.ty, info.uuid, info.name, o.orig⟩], files) ∧
        ∀ p, p ∈ files ↔ Q o.ty o.orig p) :
    ∃ es files, buildSubs K ord con id subs' = some (es, files) ∧
      (∀ e ∈ es, ∃ o ∈ os, ∃ r, f o.ty o.orig = some r ∧ e = ⟨o.ty, r.1.uuid, r.1.name, o.orig⟩) ∧
      (∀ o ∈ os, ∃ e ∈ es, ∃ r, f o.ty o.orig = some r ∧ e = ⟨o.ty, r.1.uuid, r.1.name, o.orig⟩) ∧
      (∀ p, p ∈ files ↔ ∃ o ∈ os, Q o.ty o.orig p) ∧ (subs'.isNil = true ↔ os = []) ∧
      (es.map (fun e => (e.ty, e.data))).Perm (os.map (fun o => (o.ty, o.orig))) := by
  obtain ⟨l, l', hs, rfl, hp, hl⟩ := hlike
  have key : ∀ (os : List Obj) (l : List (Text × Text × Dir × Dir)), extractKids f os = some (l.map (fun q => (q.1, q.2.1, q.2.2.1))) →
      (∀ q ∈ l, Like K R q.1 q.2.2.1 q.2.2.2) →
      (∀ o ∈ os, ∀ info dir dir', f o.ty o.orig = some (info, dir) → Like K R o.ty dir dir' →
        ∃ files, buildDir K ord con id o.ty info.name dir' = some ([⟨o.ty, info.uuid, info.name, o.orig⟩], files) ∧ ∀ p, p ∈ files ↔ Q o.ty o.orig p) →
      ∃ es files, buildSubs K ord con id (.ofList (l.map (fun q => (q.1, q.2.1, q.2.2.2)))) = some (es, files) ∧
        (∀ e ∈ es, ∃ o ∈ os, ∃ r, f o.ty o.orig = some r ∧ e = ⟨o.ty, r.1.uuid, r.1.name, o.orig⟩) ∧
        (∀ o ∈ os, ∃ e ∈ es, ∃ r, f o.ty o.orig = some r ∧ e = ⟨o.ty, r.1.uuid, r.1.name, o.orig⟩) ∧
        (∀ p, p ∈ files ↔ ∃ o ∈ os, Q o.ty o.orig p) ∧ (l = [] ↔ os = []) ∧
        es.map (fun e => (e.ty, e.data)) = os.map (fun o => (o.ty, o.orig)) := by
    intro os
    induction os with
    | nil =>
      intro l h _ _
      rw [extractKids] at h
      have hl0 : l = [] := List.map_eq_nil_iff.mp (Option.some.inj h).symm
      subst hl0
      refine ⟨[], [], by rw [List.map_nil, Subs.ofList, buildSubs], (fun e he => by cases he), (fun e he => by cases he), (fun p => ⟨(fun h => by cases h), ?_⟩), ⟨fun _ => rfl, fun _ => rfl⟩, rfl⟩
      rintro ⟨o, ho, _⟩
      cases ho
    | cons o r ih =>
      intro l h hl hf
      rw [extractKids] at h
      simp only [Option.bind_eq_some_iff, Option.map_eq_some_iff] at h
      obtain ⟨⟨info, dir⟩, ha, b, hb, he⟩ := h
      cases l with
      | nil => cases he
      | cons q l =>
        obtain ⟨ty, nm, d, d'⟩ := q
        rw [List.map_cons] at he
        injection he with he1 he2
        simp only [Prod.mk.injEq] at he1
        obtain ⟨e1, e2, e3⟩ := he1
        subst e1
        subst e2
        subst e3
        subst he2
        obtain ⟨fs, h1, h2⟩ := hf o List.mem_cons_self info dir d' ha (hl _ List.mem_cons_self)
        obtain ⟨es, files, g1, g2, g3, g4, _, g6⟩ := ih l hb (fun q hq => hl q (List.mem_cons_of_mem _ hq)) (fun o ho => hf o (List.mem_cons_of_mem _ ho))
        refine ⟨⟨o.ty, info.uuid, info.name, o.orig⟩ :: es, fs ++ files, ?_, ?_, ?_, ?_, ?_, ?_⟩
        · rw [List.map_cons, Subs.ofList, buildSubs]
          simp only [h1, g1, Option.bind_some, Option.map_some, List.cons_append, List.nil_append]
        · intro e he
          rcases List.mem_cons.mp he with rfl | he
          · exact ⟨o, List.mem_cons_self, _, ha, rfl⟩
          · obtain ⟨o', ho', r', hr'⟩ := g2 e he
            exact ⟨o', List.mem_cons_of_mem _ ho', r', hr'⟩
        · intro o' ho'
          rcases List.mem_cons.mp ho' with rfl | ho'
          · exact ⟨_, List.mem_cons_self, _, ha, rfl⟩
          · obtain ⟨e, he, r', hr'⟩ := g3 o' ho'
            exact ⟨e, List.mem_cons_of_mem _ he, r', hr'⟩
        · intro p
          rw [List.mem_append, h2, g4]
          constructor
          · rintro (h | ⟨o', ho', h⟩)
            · exact ⟨o, List.mem_cons_self, h⟩
            · exact ⟨o', List.mem_cons_of_mem _ ho', h⟩
          · rintro ⟨o', ho', h⟩
            rcases List.mem_cons.mp ho' with rfl | ho'
            · exact .inl h
            · exact .inr ⟨o', ho', h⟩
        · constructor
          · intro h; cases h
          · intro h; cases h
        · rw [List.map_cons, List.map_cons, g6]
  have hs' : subs = l.map (fun q => (q.1, q.2.1, q.2.2.1)) := ofList_inj hs
  subst hs'
  obtain ⟨es, fs, g1, g2, g3, g4, g5, g6⟩ := key os l hx hl hf
  obtain ⟨es', fs', k1, k2, k3⟩ := buildSubs_perm K ord con id hp g1
  refine ⟨es', fs', k1, fun e he => g2 e (k2.mem_iff.mp he), ?_, fun p => by rw [k3.mem_iff, g4], ?_, (k2.map _).trans (by rw [g6])⟩
  · intro o ho
    obtain ⟨e, he, r⟩ := g3 o ho
    exact ⟨e, k2.mem_iff.mpr he, r⟩
  · rw [ofList_isNil, ← g5]
    constructor
    · intro h
      rw [h] at hp
      exact List.map_eq_nil_iff.mp hp.nil_eq.symm
    · intro h
      rw [h] at hp
      exact hp.eq_nil

theorem idOf_slash (parent ty nm : Text) : '/' ∈ idOf parent ty nm := by
  unfold idOf
  exact List.mem_append_left _ (List.mem_append_right _ List.mem_cons_self)

theorem Like.congr {K K' : Text → Option Handler} {R : Bool → (Text → Option Node) → (Text → Option Node) → Prop}
    (hK : ∀ ty h, K ty = some h → ∃ h', K' ty = some h' ∧ h'.kids = h.kids)
    (hK' : ∀ ty h, K' ty = some h → ∃ h', K ty = some h' ∧ h'.kids = h.kids) {ty : Text} {d d' : Dir} (h : Like K R ty d d') : Like K' R ty d d' := by
  induction h with
  | simple hk hn hf =>
    obtain ⟨h', h1, h2⟩ := hK _ _ hk
    exact .simple h1 (h2.trans hn) hf
  | full hn hf hp _ ih =>
    refine .full (fun h' hk' => ?_) hf hp ih
    obtain ⟨h, h1, h2⟩ := hK' _ _ hk'
    rw [← h2]
    exact hn h h1

/-- the classes read from a folder that is related to the one they wrote what they read from that -/
def Steady (K : Text → Option Handler) (F : Text → Option Node) (R : Bool → (Text → Option Node) → (Text → Option Node) → Prop) : Prop :=
  ∀ ty h con v info os src S', K ty = some h → h.out con F v = some (info, os, src) → R h.kids (folder src) S' →
    h.has S' = h.has (folder src) ∧ h.conBack S' = h.conBack (folder src) ∧ ∀ con' p es, h.back con' p es S' = h.back con' p es (folder src)

theorem steady_eq (K : Text → Option Handler) (F : Text → Option Node) : Steady K F (fun _ S S' => S' = S) := by
  intro ty h con v info os src S' _ _ hS
  subst hS
  exact ⟨rfl, rfl, fun _ _ _ => rfl⟩

/-- the composition: if every object of the tree comes back for itself, the whole tree comes back, whatever the order of delivery and of the folders -/
theorem tree_back (K : Text → Option Handler) (F : Text → Option Node) (own : Text → Val → List Text) (ord : Text → List Entry → List Entry)
    (hord : ∀ id l, (ord id l).Perm l) (R : Bool → (Text → Option Node) → (Text → Option Node) → Prop) (hR : Steady K F R) :
    ∀ (n : Nat) (con : Option Text) (ty : Text) (v : Val) (parent : Text) (info : Info) (dir dir' : Dir),
    extractTree K F n con ty v = some (info, dir) → Like K R ty dir dir' → (∀ h, K ty = some h → Comes K F h own con parent ty v) →
    (∀ con' ty' v', Under K F con ty v con' ty' v' → ∀ p h, '/' ∈ p → K ty' = some h → Comes K F h own con' p ty' v') →
    ∃ files, buildDir K ord con parent ty info.name dir' = some ([⟨ty, info.uuid, info.name, v⟩], files) ∧
      ∀ p, p ∈ files ↔ (p.1 ∈ own ty v ∧ F p.1 = some p.2) ∨ ∃ con' ty' v', Under K F con ty v con' ty' v' ∧ p.1 ∈ own ty' v' ∧ F p.1 = some p.2
  | 0, con, ty, v, parent, info, dir, dir', h, _, _, _ => by rw [extractTree] at h; cases h
  | n + 1, con, ty, v, parent, info, dir, dir', hx, hlike, hroot, hunder => by
    rw [extractTree] at hx
    simp only [Option.bind_eq_some_iff] at hx
    obtain ⟨h, hK, r, hr, subs, hsubs, hx⟩ := hx
    by_cases hnd : (subs.map (fun s => (s.1, s.2.1))).Nodup
    case neg => rw [if_neg hnd] at hx; cases hx
    rw [if_pos hnd] at hx
    cases hx
    obtain ⟨info, os, src⟩ := r
    have hc := hroot h hK
    have hdir : ∃ src' subs', dir' = .mk src' subs' ∧ R h.kids (folder src) (folder src') ∧ (h.kids = false ∨ LikeSubs K R (.ofList subs) subs') := by
      generalize hd : Dir.mk src (.ofList subs) = dd at hlike
      cases hlike with
      | simple hk' hn hf =>
        cases hd
        rw [hK] at hk'
        cases hk'
        exact ⟨_, _, rfl, by rw [hn]; exact hf, .inl hn⟩
      | full hn hf hp hl =>
        injection hd with hd1 hd2
        subst hd1
        exact ⟨_, _, rfl, by rw [hn h hK]; exact hf, .inr ⟨_, _, hd2, rfl, hp, hl⟩⟩
    obtain ⟨src', subs', rfl, hRsrc, hkids'⟩ := hdir
    obtain ⟨st1, st2, st3⟩ := hR ty h con v info os src (folder src') hK hr hRsrc
    rcases hkids' with hkf | hls
    · have hos := hc.kids _ _ _ hr hkf
      subst hos
      have hent : entries ty (some ⟨info.uuid, info.name, v⟩) = [⟨ty, info.uuid, info.name, v⟩] := by
        rw [entries, if_pos (hc.truthy _ hr)]
      rw [buildDir]
      simp only [hK]
      rw [st1, if_neg (by rw [hc.has _ _ _ hr]; exact Bool.noConfusion), if_pos (.inl hkf), st3]
      obtain ⟨files, hb, hf⟩ := hc.back _ _ _ [] hr ⟨(fun o ho => by cases ho), (fun o ho => by cases ho), (fun e he => by cases he), (fun e he => by cases he), .refl _⟩
      rw [hb]
      refine ⟨files, by rw [Option.map_some, hent], ?_⟩
      intro p
      rw [hf p.1 p.2]
      constructor
      · exact .inl
      · rintro (h' | ⟨con', ty', v', hu, _⟩)
        · exact h'
        · have : ∀ con' ty' v', ¬ Under K F con ty v con' ty' v' := by
            intro con' ty' v' hu
            induction hu with
            | kid hk2 ho2 hm2 =>
              rw [hK] at hk2
              cases hk2
              rw [hr] at ho2
              cases ho2
              cases hm2
            | step _ _ _ _ ih => exact ih
          exact absurd hu (this _ _ _)
    obtain ⟨es, fs, g1, g2, g3, g4, g5, g6⟩ := kids_back K ord (h.con F v) (idOf parent ty info.name) (extractTree K F n (h.con F v)) R
      (fun ty1 v1 p => (p.1 ∈ own ty1 v1 ∧ F p.1 = some p.2) ∨ ∃ con' ty' v', Under K F (h.con F v) ty1 v1 con' ty' v' ∧ p.1 ∈ own ty' v' ∧ F p.1 = some p.2)
      os subs subs' hsubs hls (by
        intro o ho i d d' hi hlk
        have hkid : Under K F con ty v (h.con F v) o.ty o.orig := .kid hK hr ho
        exact tree_back K F own ord hord R hR n _ o.ty o.orig _ i d d' hi hlk (fun h' hk' => hunder _ _ _ hkid _ h' (idOf_slash _ _ _) hk')
          (fun con' ty' v' hu p h' hp hk' => hunder _ _ _ (hkid.trans hu) p h' hp hk'))
    -- what the nested objects record
    have hrec : ∀ o ∈ os, ∀ q, extractTree K F n (h.con F v) o.ty o.orig = some q → (∃ h' r, K o.ty = some h' ∧ h'.out (h.con F v) F o.orig = some r ∧ q.1 = r.1) ∧ lower q.1.uuid = lower o.uu := by
      intro o ho q hq
      cases n with
      | zero => rw [extractTree] at hq; cases hq
      | succ m =>
        rw [extractTree] at hq
        simp only [Option.bind_eq_some_iff] at hq
        obtain ⟨h', hk', r', hr', s', _, hq⟩ := hq
        by_cases hnd' : (s'.map (fun s => (s.1, s.2.1))).Nodup
        case neg => rw [if_neg hnd'] at hq; cases hq
        rw [if_pos hnd'] at hq
        cases hq
        exact ⟨⟨h', r', hk', hr', rfl⟩, hc.ident _ _ _ hr o ho h' r' hk' hr'⟩
    have hands : ∀ es', es'.Perm es → Hands K F (h.con F v) es' os := by
      intro es' hp
      refine ⟨?_, ?_, ?_, ?_, ?_⟩
      · intro o ho
        obtain ⟨e, he, q, hq, rfl⟩ := g3 o ho
        exact ⟨_, hp.mem_iff.mpr he, rfl, (hrec o ho q hq).2⟩
      · intro o ho e he hty hlow
        obtain ⟨o', ho', q, hq, rfl⟩ := g2 e (hp.mem_iff.mp he)
        have hu := (hrec o' ho' q hq).2
        exact hc.uniq _ _ _ hr o' ho' o ho hty (hu.symm.trans hlow)
      · intro e he
        obtain ⟨o', ho', q, hq, rfl⟩ := g2 e (hp.mem_iff.mp he)
        obtain ⟨⟨h', r', hk', _⟩, _⟩ := hrec o' ho' q hq
        exact Option.isSome_iff_exists.mpr ⟨h', hk'⟩
      · intro e he
        obtain ⟨o', ho', q, hq, rfl⟩ := g2 e (hp.mem_iff.mp he)
        obtain ⟨⟨h', r', hk', hr', hq'⟩, _⟩ := hrec o' ho' q hq
        exact ⟨h', r', hk', hr', by rw [hq'], by rw [hq']⟩
      · exact (hp.map _).trans g6
    have hent : entries ty (some ⟨info.uuid, info.name, v⟩) = [⟨ty, info.uuid, info.name, v⟩] := by
      rw [entries, if_pos (hc.truthy _ hr)]
    have hwith : ∀ p : Text × Node, (∃ o ∈ os, (p.1 ∈ own o.ty o.orig ∧ F p.1 = some p.2) ∨
        ∃ con' ty' v', Under K F (h.con F v) o.ty o.orig con' ty' v' ∧ p.1 ∈ own ty' v' ∧ F p.1 = some p.2) ↔
        ∃ con' ty' v', Under K F con ty v con' ty' v' ∧ p.1 ∈ own ty' v' ∧ F p.1 = some p.2 := by
      intro p
      constructor
      · rintro ⟨o, ho, h' | ⟨con', ty', v', hu, h'⟩⟩
        · exact ⟨_, o.ty, o.orig, .kid hK hr ho, h'⟩
        · exact ⟨con', ty', v', Under.trans (.kid hK hr ho) hu, h'⟩
      · rintro ⟨con', ty', v', hu, h'⟩
        have : ∀ con' ty' v', Under K F con ty v con' ty' v' → ∃ o ∈ os, (o.ty = ty' ∧ o.orig = v' ∧ h.con F v = con') ∨ Under K F (h.con F v) o.ty o.orig con' ty' v' := by
          intro con' ty' v' hu
          induction hu with
          | kid hk2 ho2 hm2 =>
            rw [hK] at hk2
            cases hk2
            rw [hr] at ho2
            cases ho2
            exact ⟨_, hm2, .inl ⟨rfl, rfl, rfl⟩⟩
          | step _ hk2 ho2 hm2 ih =>
            obtain ⟨o, ho, ⟨rfl, rfl, rfl⟩ | hu'⟩ := ih
            · exact ⟨o, ho, .inr (.kid hk2 ho2 hm2)⟩
            · exact ⟨o, ho, .inr (.step hu' hk2 ho2 hm2)⟩
        obtain ⟨o, ho, ⟨rfl, rfl, rfl⟩ | hu'⟩ := this con' ty' v' hu
        · exact ⟨o, ho, .inl h'⟩
        · exact ⟨o, ho, .inr ⟨con', ty', v', hu', h'⟩⟩
    rw [buildDir]
    simp only [hK, st2, hc.con _ _ _ hr]
    have hhas := hc.has _ _ _ hr
    rw [st1, if_neg (by rw [hhas]; exact Bool.noConfusion)]
    by_cases hos : os = []
    · rw [if_pos (.inr (g5.mpr hos)), st3]
      subst hos
      obtain ⟨files, hb, hf⟩ := hc.back _ _ _ [] hr ⟨(fun o ho => by cases ho), (fun o ho => by cases ho), (fun e he => by cases he), (fun e he => by cases he), .refl _⟩
      rw [hb]
      refine ⟨files, by rw [Option.map_some, hent], ?_⟩
      intro p
      rw [hf p.1 p.2, ← hwith p]
      constructor
      · exact .inl
      · rintro (h' | ⟨o, ho, _⟩)
        · exact h'
        · cases ho
    · have hns : ¬ (h.kids = false ∨ subs'.isNil = true) := by
        rintro (hk' | hn')
        · exact hos (hc.kids _ _ _ hr hk')
        · exact hos (g5.mp hn')
      rw [if_neg hns, g1, Option.bind_some]
      have hes : es ≠ [] := by
        intro he
        cases os with
        | nil => exact hos rfl
        | cons o r =>
          obtain ⟨e, hm, _⟩ := g3 o List.mem_cons_self
          rw [he] at hm
          cases hm
      rw [if_neg hes, st3]
      obtain ⟨files, hb, hf⟩ := hc.back _ _ _ (ord (idOf parent ty info.name) es) hr (hands _ (hord _ _))
      rw [hb]
      refine ⟨fs ++ files, by rw [Option.map_some, hent], ?_⟩
      intro p
      rw [List.mem_append, g4, hwith, hf p.1 p.2]
      exact or_comm

/-! ## the classes of the tool -/

/-- the identifier an object stands for in a list -/
def identOf (E : Env) (ty : Text) : Val → Option Text
  | .str s => some s
  | v => E.ident ty v

theorem decodeItems_ident {E : Env} {auto : Bool} {ty : Text} : ∀ (n : Nat) (items items' : List Val) (os : List Obj),
    decodeItems E auto ty n items = some (items', os) → ∀ o ∈ os, identOf E o.ty o.orig = some o.uu
  | 0, items, items', os, h => by
    simp only [decodeItems, Option.some.injEq, Prod.mk.injEq] at h
    rw [← h.2]
    intro o ho
    cases ho
  | n + 1, [], items', os, h => by simp [decodeItems] at h
  | n + 1, .str s :: r, items', os, h => by
    simp only [decodeItems, Option.map_eq_some_iff, Prod.mk.injEq] at h
    obtain ⟨p, hp, _, h2⟩ := h
    rw [← h2]
    intro o ho
    rcases List.mem_cons.mp ho with rfl | ho
    · rfl
    · exact decodeItems_ident n r _ _ hp o ho
  | n + 1, .none :: r, items', os, h => by
    simp only [decodeItems, Option.map_eq_some_iff, Prod.mk.injEq] at h
    obtain ⟨p, hp, _, h2⟩ := h
    rw [← h2]
    intro o ho
    exact decodeItems_ident n r _ _ hp o ho
  | n + 1, .list l :: r, items', os, h => by
    simp only [decodeItems] at h
    cases hh : E.handler ty with
    | missing =>
      simp only [hh, Option.map_eq_some_iff, Prod.mk.injEq] at h
      obtain ⟨p, hp, _, h2⟩ := h
      rw [← h2]
      intro o ho
      exact decodeItems_ident n r _ _ hp o ho
    | outside => simp [hh] at h
    | inside =>
      cases hi : E.ident ty (.list l) with
      | none => simp [hh, hi] at h
      | some u =>
        simp only [hh, hi, Option.map_eq_some_iff, Prod.mk.injEq] at h
        obtain ⟨p, hp, _, h2⟩ := h
        rw [← h2]
        intro o ho
        rcases List.mem_cons.mp ho with rfl | ho
        · exact hi
        · exact decodeItems_ident n r _ _ hp o ho

theorem decodeSlot_ident {E : Env} {auto : Bool} {s s' : Val} {os : List Obj} (h : decodeSlot E auto s = some (s', os)) :
    ∀ o ∈ os, identOf E o.ty o.orig = some o.uu := by
  match s, h with
  | .list (t :: .str n :: items), h =>
    simp only [decodeSlot] at h
    cases hn : V8.Dec.parseInt n with
    | none => simp [hn] at h
    | some c =>
      simp only [hn] at h
      cases ht : typeOf E t with
      | none =>
        simp only [ht] at h
        by_cases hc : c ≠ 0 ∧ items = []
        · rw [if_pos hc] at h; cases h
        · rw [if_neg hc] at h
          cases h
          intro o ho
          cases ho
      | some ty =>
        simp only [ht] at h
        by_cases hc : c = 0
        · rw [if_pos hc] at h
          cases h
          intro o ho
          cases ho
        · rw [if_neg hc] at h
          simp only [Option.map_eq_some_iff] at h
          obtain ⟨p, hp, h2⟩ := h
          have : p.2 = os := by
            by_cases hq : auto = true ∧ p.2 ≠ []
            · rw [if_pos hq] at h2; exact (Prod.mk.inj h2).2
            · rw [if_neg hq] at h2; exact (Prod.mk.inj h2).2
          rw [← this]
          exact decodeItems_ident _ _ p.1 p.2 hp
  | .none, h => simp [decodeSlot] at h
  | .str _, h => simp [decodeSlot] at h
  | .list [], h => simp [decodeSlot] at h
  | .list [_], h => simp [decodeSlot] at h
  | .list (_ :: .none :: _), h => simp [decodeSlot] at h
  | .list (_ :: .list _ :: _), h => simp [decodeSlot] at h

theorem decodeSlots_ident {E : Env} {auto : Bool} : ∀ (n : Nat) (made : List Text) (slots slots' : List Val) (os : List Obj),
    decodeSlots E auto made n slots = some (slots', os) → ∀ o ∈ os, identOf E o.ty o.orig = some o.uu
  | 0, made, slots, slots', os, h => by
    simp only [decodeSlots, Option.some.injEq, Prod.mk.injEq] at h
    rw [← h.2]
    intro o ho
    cases ho
  | n + 1, made, [], slots', os, h => by simp [decodeSlots] at h
  | n + 1, made, s :: r, slots', os, h => by
    obtain ⟨s', os1, made', r', os2, h1, h2, _, rfl, _, _⟩ := decodeSlots_cons h
    intro o ho
    rcases List.mem_append.mp ho with ho | ho
    · exact decodeSlot_ident h1 o ho
    · exact decodeSlots_ident n made' r r' os2 h2 o ho

/-- the names of the files of an object -/
def own (C : Text → Option Class) (ty : Text) (v : Val) : List Text := match C ty, v with
  | some (.file k), .str u => names k u
  | some (.pick _ k _), .str u => names k u
  | some (.leaf _), .str u => leafNames u
  | some (.form _), .str u => formNames u
  | some (.inner k), v => match uuidAt (headerIn k.cls v) with
    | some u => innerNames k u
    | none => []
  | _, _ => []

/-- the lists of an object are in the usual form: the numbers are right, there are no gaps, and no identifier stands twice in a list -/
structure ListsOk (E : Env) (d : List (List Val)) : Prop where
  count : (d.headD [])[2]? = some (.str (V8.Dec.showNat (slotsOf d).length))
  tidy : ∀ s ∈ slotsOf d, Tidy E s
  once : ∀ ty v v' u u', (ty, v) ∈ (slotsOf d).flatMap (listedSlot E) → (ty, v') ∈ (slotsOf d).flatMap (listedSlot E) →
    identOf E ty v = some u → identOf E ty v' = some u' → lower u = lower u' → v = v'

/-- what is asked of an object with a file of its own: the file is in the layout of the serializer, under the identifier of the object; its name,
modules, help page and info file are ones that come back each for itself (C33, C49, C52, C59, C60) -/
structure FitFile (x : Ext) (y : Bld) (F : Text → Option Node) (parent : Text) (k : Kind) (u : Text) (d : List (List Val)) : Prop where
  file : F u = some (.file (braceFile y.win d))
  ne : d ≠ []
  wf : WFFile d
  uuid : uuidAt (headerOf k.cls d) = some u
  pre : PrefixOk x.p parent (headerOf k.cls d)
  lists : k.cls.includes = true → ListsOk x.E d
  calm : Unstamped y.prod k.cls (headerOf k.cls d)
  code : ∀ c ∈ k.codes, CodeOk y.win false (F (dot u c.2))
  help : ∀ s, k.help = some s → PageOk y.win (F (dot u s))
  info : ∀ s, k.info = some s → InfoOk y.win (F (dot u s))

/-- container_uuid of an object: what its nested objects know of it -/
noncomputable def conOf (c : Class) (F : Text → Option Node) (v : Val) : Option Text := match c with
  | .file k => conOut k F v
  | _ => none

/-- what is asked of an object; `con` is the container_uuid of its parent, which forms refer to (C64) -/
def Fit (C : Text → Option Class) (g : Lim) (x : Ext) (y : Bld) (F : Text → Option Node) (con : Option Text) (parent ty : Text) (v : Val) : Prop := match C ty with
  | some (.inner k) => ∃ l u, v = .list l ∧ uuidAt (headerIn k.cls v) = some u ∧ PrefixOk x.p parent (headerIn k.cls v) ∧
      ∀ c ∈ k.codes, CodeOk y.win false (F (dot u c.2))
  | some (.leaf t) => ∃ u d c, v = .str u ∧ LeafFit x { y with parent := parent } F t u d c
  | some (.form f) => ∃ u d c fv ft, v = .str u ∧ y.auto = x.auto ∧ g.Good ∧ FormFit x { y with parent := parent } g con F f u d c fv ft
  | none => True
  | some c => ∃ u d k, v = .str u ∧ c.kindAt (rootVal d) = some k ∧ FitFile x y F parent k u d

/-- `ty' v'` stands in a list of the object `ty v`, or in one of its nested objects, at any depth; `con'` is the container_uuid of the object in
whose list it stands -/
inductive Inside (C : Text → Option Class) (E : Env) (F : Text → Option Node) : Text → Val → Option Text → Text → Val → Prop where
  | listed {ty u ty' : Text} {v' : Val} {c : Class} {k : Kind} {b : Bytes} {d : List (List Val)} (hk : C ty = some c)
      (hF : F u = some (.file b)) (hb : braceRead b = some d) (ha : c.kindAt (rootVal d) = some k) (hi : k.cls.includes = true) (hm : (ty', v') ∈ (slotsOf d).flatMap (listedSlot E)) :
      Inside C E F ty (.str u) (conOf c F (.str u)) ty' v'
  | deeper {ty ty1 ty2 : Text} {v v1 v2 : Val} {con1 con2 : Option Text} (h1 : Inside C E F ty v con1 ty1 v1) (h2 : Inside C E F ty1 v1 con2 ty2 v2) :
      Inside C E F ty v con2 ty2 v2

/-- the classes are free of collisions -/
structure ClassesOk (C : Text → Option Class) : Prop where
  file : ∀ ty c root k, C ty = some c → c.kindAt root = some k → Good k
  pick : ∀ ty n k rest, C ty = some (.pick n k rest) → k.cls.ids = [] ∧ rest ≠ [] ∧ rest.head? ≠ some 0 ∧ k.cls.rest ≠ [] ∧ k.cls.rest.head? ≠ some 0
  inner : ∀ ty k, C ty = some (.inner k) → Good k ∧ k.cls.includes = false ∧ k.help = none ∧ k.blobs = [] ∧ k.info = none ∧
    k.cls.ids = [] ∧ k.cls.stamp = false
  /-- the identifier of the object is not in its header -/
  con : ∀ ty k, C ty = some (.file k) → k.name ∈ containers → k.cls.rest ≠ [] ∧ k.cls.rest.head? ≠ some 1

theorem ids_none {c : Cls} (h : c.ids = []) : IdsOk c := ⟨by rw [h]; exact List.nodup_nil, by rw [h]; exact List.not_mem_nil, by rw [h]; exact List.nodup_nil⟩

/-- the handlers of the classes -/
noncomputable def handlers (C : Text → Option Class) (g : Lim) (x : Ext) (y : Bld) (ver : Text) (ty : Text) : Option Handler := (C ty).map (handlerOf g x y ver)

/-- extraction does not look at what only the build needs -/
theorem extractTree_congr {K K' : Text → Option Handler} {F : Text → Option Node} (h : ∀ ty, (K ty).map (fun h => (h.out, h.con)) = (K' ty).map (fun h => (h.out, h.con))) :
    ∀ (n : Nat) (con : Option Text) (ty : Text) (v : Val), extractTree K F n con ty v = extractTree K' F n con ty v
  | 0, _, _, _ => by rw [extractTree, extractTree]
  | n + 1, con, ty, v => by
    have hf : extractTree K F n = extractTree K' F n := by
      funext a b c
      exact extractTree_congr h n a b c
    rw [extractTree, extractTree, hf]
    have := h ty
    cases h1 : K ty with
    | none =>
      rw [h1] at this
      cases h2 : K' ty with
      | none => rfl
      | some b => rw [h2] at this; cases this
    | some a =>
      rw [h1] at this
      cases h2 : K' ty with
      | none => rw [h2] at this; cases this
      | some b =>
        rw [h2] at this
        obtain ⟨hab, hcb⟩ := Prod.mk.inj (Option.some.inj this)
        rw [Option.bind_some, Option.bind_some, hab, hcb]

theorem handlers_out (C : Text → Option Class) (g : Lim) (x : Ext) (y y' : Bld) (ver ty : Text) :
    (handlers C g x y ver ty).map (fun h => (h.out, h.con)) = (handlers C g x y' ver ty).map (fun h => (h.out, h.con)) := by
  unfold handlers
  rw [Option.map_map, Option.map_map]
  cases C ty with
  | none => rfl
  | some c => cases c <;> rfl

theorem uuidAt_of {h : List Val} {l : List Val} {u : Text} (h1 : h[1]? = some (.list l)) (h2 : l[2]? = some (.str u)) : uuidAt h = some u := by
  unfold uuidAt listAt strAt
  rw [h1]
  simp only [Option.bind_some, h2]

theorem tail_kept (c : Cls) (d : List (List Val)) (w : Val) (r1 : Val) (inc : List Val) (hs : V8.Product.setAt (rootVal d) c.path w = some r1)
    (hg : V8.Product.getAt r1 [0] = some (.list inc)) : inc[2]? = (d.headD [])[2]? := by
  unfold Cls.path rootVal at hs
  cases d with
  | nil => simp [V8.Product.setAt] at hs
  | cons l r =>
    rw [V8.Product.setAt] at hs
    simp only [List.map_cons, List.getElem?_cons_zero, List.set_cons_zero] at hs
    cases h2 : V8.Product.setAt (.list l) (1 :: c.rest) w with
    | none => rw [h2] at hs; cases hs
    | some v =>
      rw [h2] at hs
      cases hs
      rw [V8.Product.getAt] at hg
      simp only [List.getElem?_cons_zero, V8.Product.getAt, Option.some.injEq] at hg
      subst hg
      rw [V8.Product.setAt] at h2
      cases h3 : l[1]? with
      | none => rw [h3] at h2; cases h2
      | some z =>
        rw [h3] at h2
        cases h4 : V8.Product.setAt z c.rest w with
        | none => simp [h4] at h2
        | some z' =>
          simp only [h4, Option.map_some, Option.some.injEq, Val.list.injEq] at h2
          subst h2
          rw [List.headD_cons, List.getElem?_set_ne (by omega)]

theorem kindAt_some {c : Class} {root : Val} {k : Kind} (h : c.kindAt root = some k) : c = .file k ∨
    ∃ n k0 rest, c = .pick n k0 rest ∧ (k = k0 ∨ k = { k0 with cls := { k0.cls with rest := rest } }) := by
  cases c with
  | file k' => exact .inl (by rw [Option.some.inj h])
  | pick n k0 rest =>
    refine .inr ⟨n, k0, rest, rfl, ?_⟩
    unfold Class.kindAt at h
    simp only [Option.map_eq_some_iff] at h
    obtain ⟨z, _, rfl⟩ := h
    by_cases hz : z > n
    · rw [if_pos hz]; exact .inl rfl
    · rw [if_neg hz]; exact .inr rfl
  | inner k => cases h
  | leaf t => cases h
  | form f => cases h

theorem kindAt_version {c : Class} {r r' : Val} (h : versionAt r = versionAt r') : c.kindAt r = c.kindAt r' := by
  unfold Class.kindAt
  cases c <;> simp only [h]

theorem own_at {C : Text → Option Class} {ty u : Text} {c : Class} {root : Val} {k : Kind} (hc : C ty = some c) (h : c.kindAt root = some k) :
    own C ty (.str u) = names k u := by
  unfold own
  rw [hc]
  rcases kindAt_some h with rfl | ⟨n, k0, rest, rfl, rfl | rfl⟩ <;> rfl

theorem kids_at {g : Lim} {x : Ext} {y : Bld} {ver : Text} {c : Class} {root : Val} {k : Kind} (h : c.kindAt root = some k) :
    (handlerOf g x y ver c).kids = k.cls.includes := by
  rcases kindAt_some h with rfl | ⟨n, k0, rest, rfl, rfl | rfl⟩ <;> rfl

theorem has_at {g : Lim} {x : Ext} {y : Bld} {ver : Text} {c : Class} {root : Val} {k : Kind} (h : c.kindAt root = some k) :
    (handlerOf g x y ver c).has = hasBoth k := by
  rcases kindAt_some h with rfl | ⟨n, k0, rest, rfl, rfl | rfl⟩ <;> rfl

theorem out_at {g : Lim} {x : Ext} {y : Bld} {ver : Text} {c : Class} {F : Text → Option Node} {u : Text} {b : Bytes} {d : List (List Val)} {k : Kind} {con : Option Text}
    (hF : F u = some (.file b)) (hb : braceRead b = some d) (h : c.kindAt (rootVal d) = some k) :
    (handlerOf g x y ver c).out con F (.str u) = (extractAll x k (some ver) F u).map (fun r => (r.1, r.2.1, nodes r.2.2)) := by
  rcases kindAt_some h with rfl | ⟨n, k0, rest, rfl, _⟩
  · rfl
  · show (match F u with
      | some (.file b) => (braceRead b).bind (fun d => ((Class.pick n k0 rest).kindAt (rootVal d)).bind (fun k' =>
          (extractAll x k' (some ver) F u).map (fun (r : Info × List Obj × List (Place Bytes)) => (r.1, r.2.1, nodes r.2.2))))
      | _ => none) = _
    rw [hF]
    simp only [hb, Option.bind_some, h]

theorem version_frame {root r w : Val} {rest : List Nat} (hne : rest ≠ []) (h0 : rest.head? ≠ some 0)
    (hs : V8.Product.setAt root (0 :: 1 :: rest) w = some r) : versionAt r = versionAt root := by
  unfold versionAt
  rw [V8.Product.getAt_frame (0 :: 1 :: rest) [0, 1, 0] root r w hs]
  · intro hpre
    cases rest with
    | nil => exact hne rfl
    | cons a l =>
      obtain ⟨t, ht⟩ := hpre
      simp only [List.cons_append, List.cons.injEq, true_and] at ht
      exact h0 (by rw [← ht.1]; rfl)
  · rintro ⟨t, ht⟩
    simp only [List.cons_append, List.cons.injEq, true_and] at ht
    exact h0 (by rw [← ht]; rfl)

theorem version_includes {x : Ext} {c : Object.Cls} {r r' : Val} {os : List Obj} (h : takeIncludes x c r = some (r', os)) : versionAt r' = versionAt r := by
  unfold takeIncludes at h
  by_cases hi : c.includes = true
  · rw [if_pos hi] at h
    cases h0 : V8.Product.getAt r [0] with
    | none => rw [h0] at h; cases h
    | some v =>
      rw [h0] at h
      cases v with
      | none => cases h
      | str _ => cases h
      | list inc =>
        simp only [Option.bind_eq_some_iff, Option.map_eq_some_iff] at h
        obtain ⟨q, hq, v, hv, he⟩ := h
        obtain ⟨inc', os'⟩ := q
        cases he
        obtain ⟨a, b, n, c', slots, slots', rfl, _, _, rfl⟩ := decodeInclude_some hq
        unfold versionAt
        rw [show ([0, 1, 0] : List Nat) = [0] ++ [1, 0] from rfl, V8.Product.getAt_append, V8.Product.getAt_append, h0,
          V8.Product.getAt_setAt _ _ _ _ hv]
        rfl
  · rw [if_neg hi] at h
    cases h
    rfl

theorem back_at {C : Text → Option Class} {g : Lim} {x : Ext} {y : Bld} {ver : Text} {c : Class} {F : Text → Option Node} {ty u : Text} {b : Bytes}
    {d : List (List Val)} {k : Kind} {info : Info} {os : List Obj} {src : List (Place Bytes)} (hC : ClassesOk C) (hc : C ty = some c)
    (hF : F u = some (.file b)) (hb : braceRead b = some d) (h : c.kindAt (rootVal d) = some k)
    (hx : extractAll x k (some ver) F u = some (info, os, src)) (con : Option Text) (parent : Text) (es : List Entry) :
    (handlerOf g x y ver c).back con parent es (folder (nodes src)) = buildFull { y with parent := parent, ver := some ver } k es (folder src) := by
  have hgood := hC.file _ _ _ _ hc h
  rcases kindAt_some h with rfl | ⟨n, k0, rest, rfl, hk⟩
  · show buildFull _ k es (fileIn (folder (nodes src))) = _
    rw [fileIn_folder]
  · obtain ⟨b', d', h', r1, r2, ids, r3, bo, j, g1, g2, g3, g4, g5, g6, g7, g8, _⟩ := recorded hgood hx
    rw [hF] at g1
    cases g1
    rw [hb] at g2
    cases g2
    obtain ⟨p1, p2, p3, p4, p5⟩ := hC.pick _ _ _ _ hc
    have hname : k.name = k0.name := by rcases hk with rfl | rfl <;> rfl
    have hver : versionAt r3 = versionAt (rootVal d) := by
      have e1 : versionAt r1 = versionAt (rootVal d) := by
        rcases hk with rfl | rfl
        · exact version_frame p4 p5 g3
        · exact version_frame p2 p3 g3
      have e3 : r3 = r2 := by
        unfold hideIds at g5
        rw [if_pos (.inl (by rcases hk with rfl | rfl <;> exact p1))] at g5
        exact (Prod.mk.inj (Option.some.inj g5)).2.symm
      rw [e3, version_includes g4, e1]
    show ((fileIn (folder (nodes src)) (objName k0.name)).bind readFile).bind (fun j => (treeAt j "header".toList).bind (fun h =>
        ((Class.pick n k0 rest).kindAt h).bind (fun k' => buildFull { y with parent := parent, ver := some ver } k' es (fileIn (folder (nodes src)))))) = _
    rw [fileIn_folder, ← hname, g6, Option.bind_some, g7, Option.bind_some, g8, Option.bind_some, kindAt_version hver, h, Option.bind_some]

/-- what extraction finds in an object with a file -/
theorem file_found {x : Ext} {y : Bld} {F : Text → Option Node} {parent u : Text} {k : Kind} {d : List (List Val)} {ver : Option Text} {info : Info}
    {os : List Obj} {src : List (Place Bytes)} (hf : FitFile x y F parent k u d) (hx : extractAll x k ver F u = some (info, os, src)) :
    info.uuid = u ∧ (x.valid u = true) ∧ (k.cls.includes = false → os = []) ∧
    (k.cls.includes = true → os.map (fun o => (o.ty, o.orig)) = (slotsOf d).flatMap (listedSlot x.E)) ∧
    (∀ o ∈ os, identOf x.E o.ty o.orig = some o.uu) := by
  unfold extractAll at hx
  rw [hf.file] at hx
  simp only [Option.bind_eq_some_iff, Option.map_eq_some_iff] at hx
  obtain ⟨r, hr, p, hpo, q, hq, he⟩ := hx
  obtain ⟨qi, qo, qs⟩ := q
  simp only [Prod.mk.injEq] at he
  obtain ⟨rfl, rfl, rfl⟩ := he
  obtain ⟨d', hd, h', r1, r2, hb, hg, hdec, hs, ht, _⟩ := extract_some hq
  rw [C59_brace_file_round_trip y.win d hf.ne hf.wf] at hb
  cases hb
  obtain ⟨l, tok, h1, h2, hv, _⟩ := decode_ok hdec
  have hhd : headerOf k.cls d = hd := by unfold headerOf; rw [hg]
  have hu : qi.uuid = u := by
    have := hf.uuid
    rw [hhd, uuidAt_of h1 h2] at this
    exact Option.some.inj this
  unfold takeIncludes at ht
  by_cases hi : k.cls.includes = true
  · rw [if_pos hi] at ht
    cases h0 : V8.Product.getAt r1 [0] with
    | none => rw [h0] at ht; cases ht
    | some v =>
      rw [h0] at ht
      cases v with
      | none => cases ht
      | str _ => cases ht
      | list inc =>
        simp only [Option.bind_eq_some_iff, Option.map_eq_some_iff] at ht
        obtain ⟨q, hq2, r3, hr3, he⟩ := ht
        obtain ⟨inc', os'⟩ := q
        cases he
        have hdrop := slots_kept k.cls d _ r1 inc hs h0
        have h2nd := tail_kept k.cls d _ r1 inc hs h0
        obtain ⟨a, b, n, c, slots, slots', rfl, hn, hds, _⟩ := decodeInclude_some hq2
        have hsl : slots = slotsOf d := by rw [← hdrop]; rfl
        have hlists := hf.lists hi
        have hcount : n = V8.Dec.showNat slots.length := by
          have := hlists.count
          rw [← h2nd, ← hsl] at this
          simpa using this
        refine ⟨hu, hu ▸ hv, (fun h => by rw [hi] at h; cases h), (fun _ => ?_), ?_⟩
        · rw [← hsl]
          exact C57_every_listed_object_found x.E x.auto _ _ _ a b n slots rfl hcount hq2 (by rw [hsl]; exact hlists.tidy)
        · exact decodeSlots_ident _ _ _ _ _ hds
  · rw [if_neg hi] at ht
    cases ht
    refine ⟨hu, hu ▸ hv, (fun _ => rfl), (fun h => absurd h hi), ?_⟩
    intro o ho
    cases ho

theorem prefix_deeper {p q q' : Text} {h : List Val} (hq : '/' ∈ q) (hq' : '/' ∈ q') (hp : PrefixOk p q h) : PrefixOk p q' h := by
  obtain ⟨name, hn, hc⟩ := hp
  refine ⟨name, hn, ?_⟩
  rw [if_neg (fun hh => hh.1 hq)] at hc
  rw [if_neg (fun hh => hh.1 hq')]
  exact hc

theorem fit_deeper {C : Text → Option Class} {g : Lim} {x : Ext} {y : Bld} {F : Text → Option Node} {con : Option Text} {q q' ty : Text} {v : Val} (hq : '/' ∈ q)
    (hq' : '/' ∈ q') (hf : Fit C g x y F con q ty v) : Fit C g x y F con q' ty v := by
  unfold Fit at hf ⊢
  cases hC : C ty with
  | none => trivial
  | some c =>
    rw [hC] at hf
    cases c with
    | file k =>
      obtain ⟨u, d, k', rfl, ha, h⟩ := hf
      exact ⟨u, d, k', rfl, ha, { h with pre := prefix_deeper hq hq' h.pre }⟩
    | pick n k rest =>
      obtain ⟨u, d, k', rfl, ha, h⟩ := hf
      exact ⟨u, d, k', rfl, ha, { h with pre := prefix_deeper hq hq' h.pre }⟩
    | inner k =>
      obtain ⟨l, u, rfl, h1, h2, h3⟩ := hf
      exact ⟨l, u, rfl, h1, prefix_deeper hq hq' h2, h3⟩
    | leaf t =>
      obtain ⟨u, d, c, rfl, h⟩ := hf
      exact ⟨u, d, c, rfl, ⟨h.file, h.ne, h.wf, h.place, h.uuid, prefix_deeper hq hq' h.pre, h.data⟩⟩
    | form f =>
      obtain ⟨u, d, c, fv, ft, rfl, ha, hg, h⟩ := hf
      exact ⟨u, d, c, fv, ft, rfl, ha, hg, ⟨h.file, h.ne, h.wf, h.place, h.type, h.uuid, prefix_deeper hq hq' h.pre, h.data⟩⟩

/-- the JSON files are among the sources -/
theorem has_json {k : Kind} {a : List (Place Bytes)} {bi bo : Bytes}
    (hn : ((a ++ [(idName k.name, some bi), (objName k.name, some bo)]).map (·.1)).Nodup) :
    hasBoth k (folder (nodes (a ++ [(idName k.name, some bi), (objName k.name, some bo)]))) = true := by
  unfold hasBoth
  rw [fileIn_folder, folder_place _ (idName k.name) (some bi) hn (List.mem_append_right _ List.mem_cons_self),
    folder_place _ (objName k.name) (some bo) hn (List.mem_append_right _ (List.mem_cons_of_mem _ List.mem_cons_self))]
  rfl

theorem parts_names {win : Bool} {k : Kind} {F : Text → Option Node} {u : Text} {p : List (Place JT) × List (Place Bytes)}
    (h : partsOut win k F u = some p) (bi bo : Bytes) :
    (p.2 ++ [(idName k.name, some bi), (objName k.name, some bo)]).map (·.1) = sources k := by
  obtain ⟨a, b, c, i, ha, hb, hc, hi, rfl⟩ := partsOut_some h
  unfold sources
  rw [List.map_append, List.map_append, List.map_append, (helpOut_shape ha).2.1, blobsOut_shape hb, (codesOut_shape hc).2.1]
  rfl

theorem extractAll_has {x : Ext} {k : Kind} {ver : Option Text} {F : Text → Option Node} {u : Text} {info : Info} {os : List Obj}
    {src : List (Place Bytes)} (hk : Good k) (hx : extractAll x k ver F u = some (info, os, src)) : hasBoth k (folder (nodes src)) = true := by
  unfold extractAll at hx
  cases hF : F u with
  | none => rw [hF] at hx; cases hx
  | some nd =>
    rw [hF] at hx
    cases nd with
    | dir f => cases hx
    | file b =>
      simp only [Option.bind_eq_some_iff, Option.map_eq_some_iff] at hx
      obtain ⟨r, hr, p, hpo, q, hq, he⟩ := hx
      simp only [Prod.mk.injEq] at he
      obtain ⟨_, _, rfl⟩ := he
      exact has_json (by rw [parts_names hpo]; exact hk.sources)

/-- what extraction of an inner object needs and gives -/
theorem innerAll_some {x : Ext} {k : Kind} {F : Text → Option Node} {v : Val} {info : Info} {src : List (Place Bytes)} (hk : Good k)
    (hx : innerAll x k F v = some (info, src)) : hasBoth k (folder (nodes src)) = true ∧ uuidAt (headerIn k.cls v) = some info.uuid ∧ truthy v = true := by
  unfold innerAll at hx
  simp only [Option.bind_eq_some_iff, Option.map_eq_some_iff] at hx
  obtain ⟨r, hr, p, hpo, q, hq, he⟩ := hx
  simp only [Prod.mk.injEq] at he
  obtain ⟨rfl, rfl⟩ := he
  obtain ⟨qi, qo, qs⟩ := q
  obtain ⟨hd, h', r1, r2, hg, hdec, _⟩ := extractVal_some hq
  obtain ⟨l, tok, h1, h2, _⟩ := decode_ok hdec
  refine ⟨has_json (by rw [parts_names hpo]; exact hk.sources), ?_, ?_⟩
  · unfold headerIn
    rw [hg]
    exact uuidAt_of h1 h2
  · unfold Cls.path at hg
    cases v with
    | none => simp [V8.Product.getAt] at hg
    | str s => simp [V8.Product.getAt] at hg
    | list l =>
      cases l with
      | nil => simp [V8.Product.getAt] at hg
      | cons a b => rfl

/-- an object with a file, by its handler -/
theorem found_at {g : Lim} {x : Ext} {y : Bld} {ver : Text} {c : Class} {F : Text → Option Node} {q u : Text} {d : List (List Val)} {k : Kind}
    {r : Info × List Obj × List (Place Node)} (hf : FitFile x y F q k u d) (ha : c.kindAt (rootVal d) = some k)
    {con : Option Text} (ho : (handlerOf g x y ver c).out con F (.str u) = some r) : ∃ src, extractAll x k (some ver) F u = some (r.1, r.2.1, src) ∧ r.2.2 = nodes src := by
  rw [out_at hf.file (C59_brace_file_round_trip y.win d hf.ne hf.wf) ha, Option.map_eq_some_iff] at ho
  obtain ⟨⟨i, os, src⟩, h1, rfl⟩ := ho
  exact ⟨src, h1, rfl⟩

theorem fit_at {C : Text → Option Class} {g : Lim} {x : Ext} {y : Bld} {F : Text → Option Node} {q ty : Text} {v root : Val} {c : Class} {k : Kind}
    {con : Option Text} (hc : C ty = some c) (ha : c.kindAt root = some k) (hf : Fit C g x y F con q ty v) :
    ∃ u d k, v = .str u ∧ c.kindAt (rootVal d) = some k ∧ FitFile x y F q k u d := by
  unfold Fit at hf
  rw [hc] at hf
  cases c with
  | file k => exact hf
  | pick n k rest => exact hf
  | inner k => cases ha
  | leaf t => cases ha
  | form f => cases ha

/-- a class with files and lists, by the kind at hand, or another class -/
theorem class_cases {C : Text → Option Class} {g : Lim} {x : Ext} {y : Bld} {F : Text → Option Node} {q ty : Text} {v : Val} {c : Class} {con : Option Text} (hc : C ty = some c)
    (hf : Fit C g x y F con q ty v) : (∃ u d k, v = .str u ∧ c.kindAt (rootVal d) = some k ∧ FitFile x y F q k u d) ∨ (∃ k, c = .inner k) ∨ (∃ t, c = .leaf t) ∨
      (∃ f, c = .form f) := by
  unfold Fit at hf
  rw [hc] at hf
  cases c with
  | file k => exact .inl hf
  | pick n k rest => exact .inl hf
  | inner k => exact .inr (.inl ⟨k, rfl⟩)
  | leaf t => exact .inr (.inr (.inl ⟨t, rfl⟩))
  | form f => exact .inr (.inr (.inr ⟨f, rfl⟩))

theorem leaf_out {g : Lim} {x : Ext} {y : Bld} {ver : Text} {t : Leaf} {F : Text → Option Node} {u : Text} {r : Info × List Obj × List (Place Node)}
    {con : Option Text} (h : (handlerOf g x y ver (.leaf t)).out con F (.str u) = some r) : leafOut x ver t F u = some (r.1, r.2.2) ∧ r.2.1 = [] := by
  have h' : (leafOut x ver t F u).map (fun (r : Info × List (Place Node)) => (r.1, ([] : List Obj), r.2)) = some r := h
  rw [Option.map_eq_some_iff] at h'
  obtain ⟨⟨i, s⟩, h1, rfl⟩ := h'
  exact ⟨h1, rfl⟩

theorem form_out {g : Lim} {x : Ext} {y : Bld} {ver : Text} {f : FCls} {F : Text → Option Node} {u : Text} {r : Info × List Obj × List (Place Node)}
    {con : Option Text} (h : (handlerOf g x y ver (.form f)).out con F (.str u) = some r) : formOut x g con f F u = some (r.1, r.2.2) ∧ r.2.1 = [] := by
  have h' : (formOut x g con f F u).map (fun (r : Info × List (Place Node)) => (r.1, ([] : List Obj), r.2)) = some r := h
  rw [Option.map_eq_some_iff] at h'
  obtain ⟨⟨i, s⟩, h1, rfl⟩ := h'
  exact ⟨h1, rfl⟩

/-- a nested object records the identifier under which it was listed -/
theorem kid_ident {C : Text → Option Class} {g : Lim} {x : Ext} {y : Bld} {ver : Text} {F : Text → Option Node} {types : List (Text × Text)} {o : Obj}
    {h' : Handler} {r : Info × List Obj × List (Place Node)} {q : Text} {con : Option Text} (hC : ClassesOk C) (hE : x.E = envOf types C)
    (hp : y.p = x.p) (hi : identOf x.E o.ty o.orig = some o.uu) (hf : Fit C g x y F con q o.ty o.orig) (hk : handlers C g x y ver o.ty = some h')
    (ho : h'.out con F o.orig = some r) : r.1.uuid = o.uu := by
  unfold handlers at hk
  rw [Option.map_eq_some_iff] at hk
  obtain ⟨c, hc, rfl⟩ := hk
  rcases class_cases hc hf with ⟨u, d, k, hv, ha, hf⟩ | ⟨k, rfl⟩ | ⟨t, rfl⟩ | ⟨f, rfl⟩
  · rw [hv] at ho hi
    obtain ⟨src, h1, _⟩ := found_at hf ha ho
    have := (file_found hf h1).1
    cases hi
    exact this
  · unfold Fit at hf
    rw [hc] at hf
    obtain ⟨l, u, hv, hu, _⟩ := hf
    rw [hv] at ho hi hu
    simp only [handlerOf, Option.map_eq_some_iff] at ho
    obtain ⟨⟨info, src⟩, ha, rfl⟩ := ho
    have h1 := (innerAll_some (hC.inner _ _ hc).1 ha).2.1
    unfold identOf at hi
    rw [hE] at hi
    simp only [envOf, hc] at hi
    rw [h1] at hi
    exact Option.some.inj hi
  · unfold Fit at hf
    rw [hc] at hf
    obtain ⟨u, d, cl, hv, hf⟩ := hf
    rw [hv] at ho hi
    have := (leaf_back x { y with parent := q } ver t F u d cl r.1 r.2.2 hf hp (leaf_out ho).1).1
    cases hi
    exact this
  · unfold Fit at hf
    rw [hc] at hf
    obtain ⟨u, d, cl, fv, ft, hv, ha, hg, hf⟩ := hf
    rw [hv] at ho hi
    have := (form_back x { y with parent := q } g con f F u d cl fv ft r.1 r.2.2 hf hp ha hg (form_out ho).1).1
    cases hi
    exact this

theorem auto_none {E : Env} : ∀ (n : Nat) (made : List Text) (slots slots' : List Val), decodeSlots E true made n slots = some (slots', []) →
    (∀ s ∈ slots, Tidy E s) → slots' = slots
  | 0, made, slots, slots', h, _ => by
    simp only [decodeSlots, Option.some.injEq, Prod.mk.injEq] at h
    exact h.1.symm
  | n + 1, made, [], slots', h, _ => by simp [decodeSlots] at h
  | n + 1, made, s :: r, slots', h, ht => by
    obtain ⟨s', os1, made', r', os2, h1, h2, rfl, he, _, _⟩ := decodeSlots_cons h
    obtain ⟨rfl, rfl⟩ := List.append_eq_nil_iff.mp he.symm
    rw [auto_none n made' r r' h2 (fun s hs => ht s (List.mem_cons_of_mem _ hs))]
    rcases slot_auto h1 (ht s List.mem_cons_self) with ⟨_, rfl, _⟩ | ⟨_, _, _, _, _, _, _, _, hne, _⟩
    · rfl
    · exact absurd rfl hne

theorem uuidOf_nameOf {types : List (Text × Text)} {C : Text → Option Class} (hn : (types.map (·.2)).Nodup) (u ty : Text)
    (h : (envOf types C).nameOf u = some ty) : (envOf types C).uuidOf ty = some u := by
  unfold envOf at h ⊢
  simp only [Option.map_eq_some_iff] at h ⊢
  obtain ⟨p, hp, rfl⟩ := h
  have hm := List.mem_of_find?_eq_some hp
  have hu := List.find?_some hp
  rw [decide_eq_true_eq] at hu
  cases hf : types.find? (fun q => decide (q.2 = p.2)) with
  | none =>
    have := List.find?_eq_none.mp hf p hm
    simp at this
  | some q =>
    refine ⟨q, rfl, ?_⟩
    have hq := List.mem_of_find?_eq_some hf
    have hq2 := List.find?_some hf
    rw [decide_eq_true_eq] at hq2
    have : ∀ (l : List (Text × Text)), (l.map (·.2)).Nodup → q ∈ l → p ∈ l → q = p := by
      intro l
      induction l with
      | nil => intro _ h; cases h
      | cons a r ih =>
        intro hn h1 h2
        rw [List.map_cons, List.nodup_cons] at hn
        rcases List.mem_cons.mp h1 with g1 | g1 <;> rcases List.mem_cons.mp h2 with g2 | g2
        · rw [g1, g2]
        · exact absurd (List.mem_map.mpr ⟨p, g2, by rw [← g1, hq2]⟩) hn.1
        · exact absurd (List.mem_map.mpr ⟨q, g1, by rw [← g2, hq2]⟩) hn.1
        · exact ih hn.2 g1 g2
    rw [this types hn hq hm]
    exact hu

/-- the nested objects, with the option auto_include: the lists of the object stand in the order of the names -/
structure AutoOk (types : List (Text × Text)) (C : Text → Option Class) (g : Lim) (x : Ext) (y : Bld) (ver : Text) (F : Text → Option Node) (nm : Val → Text)
    (ty : Text) (v : Val) : Prop where
  order : ∀ c k u b d, C ty = some c → v = .str u → F u = some (.file b) → braceRead b = some d → c.kindAt (rootVal d) = some k → k.cls.includes = true →
    ∀ s ∈ slotsOf d, NameOrder nm s
  name : ∀ h con r, handlers C g x y ver ty = some h → h.out con F v = some r → r.1.name = nm v

theorem handler_real {types : List (Text × Text)} {C : Text → Option Class} {g : Lim} {x : Ext} {y : Bld} {ver : Text} {ty : Text}
    (h : (handlers C g x y ver ty).isSome = true) : (envOf types C).handler ty ≠ .missing := by
  intro hm
  unfold handlers at h
  unfold envOf at hm
  simp only at hm
  cases h2 : C ty with
  | none => rw [h2] at h; cases h
  | some c => rw [h2] at hm; cases c <;> cases hm

/-- the lists of an object come back when its nested objects deliver what stood in them, with or without auto_include -/
theorem lists_back {C : Text → Option Class} {g : Lim} {x : Ext} {y : Bld} {ver : Text} {F : Text → Option Node} {types : List (Text × Text)} {nm : Val → Text}
    {inc inc' : List Val} {os : List Obj} {es : List Entry} (hE : x.E = envOf types C) (hn : x.auto = true → (types.map (·.2)).Nodup)
    (ht : ∀ s ∈ inc.drop 3, Tidy x.E s) (ho : x.auto = true → ∀ s ∈ inc.drop 3, NameOrder nm s)
    (hnm : x.auto = true → ∀ e ∈ es, e.nm = nm e.data) {con : Option Text} (hands : Hands (handlers C g x y ver) F con es os)
    (hdi : decodeInclude x.E x.auto inc = some (inc', os)) : buildInclude x.E false y.auto es inc' = some inc := by
  have hr : ∀ e ∈ es, x.E.handler e.ty ≠ .missing := by
    intro e he
    rw [hE]
    exact handler_real (hands.real e he)
  cases ha : x.auto with
  | false =>
    rw [ha] at hdi
    exact C57_lists_round_trip x.E inc inc' os es hdi ⟨hands.found, hands.same, hr⟩ (fun s hs => (ht s hs).noGap) y.auto
  | true =>
    rw [ha] at hdi
    by_cases hes : es = []
    · subst hes
      have hos : os = [] := by
        cases os with
        | nil => rfl
        | cons o r =>
          obtain ⟨e, he, _⟩ := hands.found o List.mem_cons_self
          cases he
      subst hos
      obtain ⟨a, b, n, c, slots, slots', rfl, _, hs, rfl⟩ := decodeInclude_some hdi
      unfold buildInclude
      rw [if_pos (.inl rfl), auto_none _ _ _ _ hs ht]
    · have := C57_automatic_lists_partial x.E inc inc' os es nm false hdi ht (ho ha) (by rw [hE]; exact uuidOf_nameOf (hn ha)) hr (hnm ha) hes (by
        intro ty
        have h1 := (hands.exact.filter (fun p => decide (p.1 = ty))).map (·.2)
        rw [List.filter_map, List.filter_map, List.map_map, List.map_map] at h1
        exact h1)
      unfold buildInclude at this ⊢
      rw [if_neg (by simp [hes])] at this ⊢
      exact this

theorem con_at (g : Lim) (x : Ext) (y : Bld) (ver : Text) (c : Class) : (handlerOf g x y ver c).con = conOf c := by
  cases c <;> rfl

theorem includes_frame {x : Ext} {c : Object.Cls} {r r' : Val} {os : List Obj} (h : takeIncludes x c r = some (r', os)) (q : List Nat) :
    V8.Product.getAt r' (0 :: 1 :: q) = V8.Product.getAt r (0 :: 1 :: q) := by
  unfold takeIncludes at h
  by_cases hi : c.includes = true
  · rw [if_pos hi] at h
    cases h0 : V8.Product.getAt r [0] with
    | none => rw [h0] at h; cases h
    | some v =>
      rw [h0] at h
      cases v with
      | none => cases h
      | str _ => cases h
      | list inc =>
        simp only [Option.bind_eq_some_iff, Option.map_eq_some_iff] at h
        obtain ⟨p, hq, v, hv, he⟩ := h
        obtain ⟨inc', os'⟩ := p
        cases he
        obtain ⟨a, b, n, c', slots, slots', rfl, _, _, rfl⟩ := decodeInclude_some hq
        rw [show (0 :: 1 :: q : List Nat) = [0] ++ (1 :: q) from rfl, V8.Product.getAt_append, V8.Product.getAt_append, h0,
          V8.Product.getAt_setAt _ _ _ _ hv]
        rfl
  · rw [if_neg hi] at h
    cases h
    rfl

/-- the build finds the container_uuid that extraction found -/
theorem con_back {C : Text → Option Class} {g : Lim} {x : Ext} {y : Bld} {ver : Text} {c : Class} {F : Text → Option Node} {ty u : Text} {b : Bytes}
    {d : List (List Val)} {k : Kind} {info : Info} {os : List Obj} {src : List (Place Bytes)} (hC : ClassesOk C) (hc : C ty = some c)
    (hF : F u = some (.file b)) (hb : braceRead b = some d) (h : c.kindAt (rootVal d) = some k)
    (hx : extractAll x k (some ver) F u = some (info, os, src)) :
    (handlerOf g x y ver c).conBack (folder (nodes src)) = (handlerOf g x y ver c).con F (.str u) := by
  have hgood := hC.file _ _ _ _ hc h
  rcases kindAt_some h with rfl | ⟨n, k0, rest, rfl, hk⟩
  case inr => rfl
  show conIn k ver (folder (nodes src)) = conOut k F (.str u)
  unfold conIn conOut
  simp only
  by_cases hm : k.name ∈ containers
  case neg => rw [if_neg hm, if_neg hm]
  rw [if_pos hm, if_pos hm, hF]
  obtain ⟨b', d', h', r1, r2, ids, r3, bo, j, g1, g2, g3, g4, g5, g6, g7, g8, bi, g9, g10⟩ := recorded hgood hx
  rw [hF] at g1
  cases g1
  rw [hb] at g2
  cases g2
  obtain ⟨p1, p2⟩ := hC.con _ _ hc hm
  rw [fileIn_folder, g6, g9, Option.bind_some, g10, Option.bind_some, Option.bind_some, g7, Option.bind_some, g8, Option.bind_some,
    showIds_hideIds hgood.ids (.inr rfl) g5 info, Option.bind_some]
  simp only [hb, Option.bind_some]
  unfold conAt
  rw [includes_frame g4 [1], V8.Product.getAt_frame k.cls.path [0, 1, 1] (rootVal d) r1 _ g3]
  · unfold Cls.path
    intro hpre
    cases hr : k.cls.rest with
    | nil => exact p1 hr
    | cons a l =>
      rw [hr] at hpre p2
      obtain ⟨t, ht⟩ := hpre
      simp only [List.cons_append, List.cons.injEq, true_and] at ht
      exact p2 (by rw [← ht.1]; rfl)
  · unfold Cls.path
    rintro ⟨t, ht⟩
    simp only [List.cons_append, List.nil_append, List.cons.injEq, true_and] at ht
    exact p2 (by rw [← ht]; rfl)

theorem comes_file {C : Text → Option Class} {g : Lim} {x : Ext} {y : Bld} {ver : Text} {F : Text → Option Node} {types : List (Text × Text)} {con : Option Text} {parent ty u : Text}
    {c : Class} {k : Kind} {d : List (List Val)} {nm : Val → Text} (hC : ClassesOk C) (hE : x.E = envOf types C) (hy : y.E = x.E) (hp : y.p = x.p)
    (hn : x.auto = true → (types.map (·.2)).Nodup) (hself : x.auto = true → AutoOk types C g x y ver F nm ty (.str u))
    (hauto : x.auto = true → ∀ con' ty' v', Inside C x.E F ty (.str u) con' ty' v' → AutoOk types C g x y ver F nm ty' v')
    (hv0 : x.valid [] = false) (hc : C ty = some c) (hk : c.kindAt (rootVal d) = some k) (hf : FitFile x y F parent k u d)
    (hin : ∀ con' ty' v', Inside C x.E F ty (.str u) con' ty' v' → ∃ q, Fit C g x y F con' q ty' v') :
    Comes (handlers C g x y ver) F (handlerOf g x y ver c) (own C) con parent ty (.str u) := by
  have hgood := hC.file _ _ _ _ hc hk
  have hread := C59_brace_file_round_trip y.win d hf.ne hf.wf
  -- a nested object that was found stands in a list
  have hlist : ∀ info os src, extractAll x k (some ver) F u = some (info, os, src) → ∀ o ∈ os, k.cls.includes = true ∧
      (o.ty, o.orig) ∈ (slotsOf d).flatMap (listedSlot x.E) ∧ identOf x.E o.ty o.orig = some o.uu := by
    intro info os src hx o ho
    obtain ⟨_, _, h3, h4, h5⟩ := file_found hf hx
    cases hi : k.cls.includes with
    | false =>
      rw [h3 hi] at ho
      cases ho
    | true =>
      refine ⟨rfl, ?_, h5 o ho⟩
      rw [← h4 hi]
      exact List.mem_map.mpr ⟨o, ho, rfl⟩
  refine ⟨?_, ?_, ?_, ?_, ?_, ?_, ?_⟩
  · rintro ⟨info, os, src⟩ hx0
    obtain ⟨src', hx, _⟩ := found_at hf hk hx0
    have hv := (file_found hf hx).2.1
    cases u with
    | nil => rw [hv0] at hv; cases hv
    | cons a b => rfl
  · intro info os src hx0
    obtain ⟨src', hx, hs⟩ := found_at hf hk hx0
    rw [has_at hk, show src = nodes src' from hs]
    exact extractAll_has hgood hx
  · intro info os src hx0 hkf
    obtain ⟨src', hx, _⟩ := found_at hf hk hx0
    rw [kids_at hk] at hkf
    exact (file_found hf hx).2.2.1 hkf
  · intro info os src0 es hx0 hands
    obtain ⟨src, hx, hs⟩ := found_at hf hk hx0
    simp only at hx hs
    subst hs
    have hff := file_found hf hx
    refine ⟨written ((names k u).map (fun n => (n, F n))), ?_, ?_⟩
    case refine_1 =>
      rw [back_at hC hc hf.file hread hk hx, hff.1]
      exact object_full x { y with parent := parent, ver := some ver } k (some ver) F u d info os src es hgood hx hff.1 hf.file hf.ne hf.wf (.inr rfl) hf.calm hp hf.pre
        (fun hi inc inc' hs hdi => by
          show buildInclude y.E false y.auto es inc' = some inc
          rw [hy]
          refine lists_back (nm := nm) hE hn (by rw [hs]; exact (hf.lists hi).tidy) (fun ha => by rw [hs]; exact (hself ha).order c k u _ d hc rfl hf.file hread hk hi)
            (fun ha e he => ?_) hands hdi
          obtain ⟨h', r, hk', ho', hnm, _⟩ := hands.names e he
          have hm : (e.ty, e.data) ∈ os.map (fun o => (o.ty, o.orig)) := hands.exact.mem_iff.mp (List.mem_map.mpr ⟨e, he, rfl⟩)
          obtain ⟨o, ho, heq⟩ := List.mem_map.mp hm
          obtain ⟨hi', hm', _⟩ := hlist _ _ _ hx o ho
          obtain ⟨e1, e2⟩ := Prod.mk.inj heq
          rw [e1, e2] at hm'
          rw [hnm]
          exact (hauto ha _ _ _ (.listed hc hf.file hread hk hi' hm')).name h' _ r hk' ho')
        hf.code hf.help hf.info
    case refine_2 =>
      intro n nd
      rw [own_at hc hk]
      exact (C60_exactly k u F hgood).1 n nd
  · intro info os src0 hx0 o ho h' r hk' ho'
    obtain ⟨src, hx, _⟩ := found_at hf hk hx0
    obtain ⟨hi, hm, hid⟩ := hlist _ _ _ hx o ho
    obtain ⟨q, hq⟩ := hin _ _ _ (.listed hc hf.file hread hk hi hm)
    rw [con_at] at ho'
    rw [kid_ident hC hE hp hid hq hk' ho']
  · intro info os src0 hx0 o ho o' ho' hty hlow
    obtain ⟨src, hx, _⟩ := found_at hf hk hx0
    obtain ⟨hi, hm, hid⟩ := hlist _ _ _ hx o ho
    obtain ⟨_, hm', hid'⟩ := hlist _ _ _ hx o' ho'
    rw [← hty] at hm' hid'
    exact (hf.lists hi).once _ _ _ _ _ hm hm' hid hid' hlow
  · intro info os src0 hx0
    obtain ⟨src, hx, hs⟩ := found_at hf hk hx0
    simp only at hx hs
    subst hs
    exact con_back hC hc hf.file hread hk hx

theorem comes_inner {C : Text → Option Class} {g : Lim} {x : Ext} {y : Bld} {ver : Text} {F : Text → Option Node} {con : Option Text} {parent ty : Text} {v : Val}
    {k : Kind} (hC : ClassesOk C) (hp : y.p = x.p) (hc : C ty = some (.inner k)) (hf : Fit C g x y F con parent ty v) :
    Comes (handlers C g x y ver) F (handlerOf g x y ver (.inner k)) (own C) con parent ty v := by
  obtain ⟨hgood, h1, h2, h3, h4, h5, h6⟩ := hC.inner _ _ hc
  unfold Fit at hf
  rw [hc] at hf
  obtain ⟨l, u, rfl, hu, hpre, hcode⟩ := hf
  have hout : ∀ info os src, (handlerOf g x y ver (.inner k)).out con F (.list l) = some (info, os, src) →
      ∃ src', innerAll x k F (.list l) = some (info, src') ∧ os = [] ∧ src = nodes src' := by
    intro info os src hx
    simp only [handlerOf, Option.map_eq_some_iff] at hx
    obtain ⟨⟨i, s⟩, ha, he⟩ := hx
    cases he
    exact ⟨s, ha, rfl, rfl⟩
  refine ⟨?_, ?_, ?_, ?_, ?_, ?_, fun _ _ _ _ => rfl⟩
  · rintro ⟨info, os, src⟩ hx
    obtain ⟨src', h, _⟩ := hout _ _ _ hx
    exact (innerAll_some hgood h).2.2
  · intro info os src hx
    obtain ⟨src', h, _, rfl⟩ := hout _ _ _ hx
    exact (innerAll_some hgood h).1
  · intro info os src hx _
    obtain ⟨src', _, h, _⟩ := hout _ _ _ hx
    exact h
  · intro info os src0 es hx _
    obtain ⟨src, ha, _, rfl⟩ := hout _ _ _ hx
    have hui := (innerAll_some hgood ha).2.1
    rw [hu] at hui
    cases hui
    refine ⟨written ((innerNames k info.uuid).map (fun n => (n, F n))), ?_, ?_⟩
    case refine_1 =>
      show innerFull { y with parent := parent, ver := some ver } k (fileIn (folder (nodes src))) = some (some ⟨info.uuid, info.name, .list l⟩, _)
      rw [fileIn_folder]
      exact C60_inner_object x { y with parent := parent, ver := some ver } k F (.list l) info src hgood h1 h5 h6 h2 h3 h4 ha hp hpre hcode
    case refine_2 =>
      intro n nd
      unfold own
      rw [hc]
      simp only [hu]
      rw [mem_written, List.mem_map]
      constructor
      · rintro ⟨m, hm, he⟩
        obtain ⟨rfl, he2⟩ := Prod.mk.inj he
        exact ⟨hm, he2⟩
      · rintro ⟨hm, he⟩
        exact ⟨n, hm, by rw [he]⟩
  · intro info os src hx o ho
    obtain ⟨_, _, h, _⟩ := hout _ _ _ hx
    rw [h] at ho
    cases ho
  · intro info os src hx o ho
    obtain ⟨_, _, h, _⟩ := hout _ _ _ hx
    rw [h] at ho
    cases ho

theorem comes_leaf {C : Text → Option Class} {g : Lim} {x : Ext} {y : Bld} {ver : Text} {F : Text → Option Node} {con : Option Text} {parent ty : Text} {v : Val}
    {t : Leaf} (hp : y.p = x.p) (hv0 : x.valid [] = false) (hc : C ty = some (.leaf t)) (hf : Fit C g x y F con parent ty v) :
    Comes (handlers C g x y ver) F (handlerOf g x y ver (.leaf t)) (own C) con parent ty v := by
  unfold Fit at hf
  rw [hc] at hf
  obtain ⟨u, d, cl, rfl, hf⟩ := hf
  have hf' : LeafFit x { y with parent := parent, ver := some ver } F t u d cl := ⟨hf.file, hf.ne, hf.wf, hf.place, hf.uuid, hf.pre, hf.data⟩
  refine ⟨?_, ?_, ?_, ?_, ?_, ?_, fun _ _ _ _ => rfl⟩
  · intro r hx
    have hv := (leaf_back _ _ _ _ _ _ _ _ _ _ hf' hp (leaf_out hx).1).2.1
    cases u with
    | nil => rw [hv0] at hv; cases hv
    | cons a b => rfl
  · intro info os src hx
    exact (leaf_back _ _ _ _ _ _ _ _ _ _ hf' hp (leaf_out hx).1).2.2.1
  · intro info os src hx _
    exact (leaf_out hx).2
  · intro info os src es hx _
    obtain ⟨h1, _, _, h4⟩ := leaf_back _ _ _ _ _ _ _ _ _ _ hf' hp (leaf_out hx).1
    refine ⟨written ((leafNames u).map (fun n => (n, F n))), ?_, ?_⟩
    case refine_1 =>
      rw [h1]
      exact h4
    case refine_2 =>
      intro n nd
      unfold own
      rw [hc]
      simp only
      rw [mem_written, List.mem_map]
      constructor
      · rintro ⟨m, hm, he⟩
        obtain ⟨rfl, he2⟩ := Prod.mk.inj he
        exact ⟨hm, he2⟩
      · rintro ⟨hm, he⟩
        exact ⟨n, hm, by rw [he]⟩
  · intro info os src hx o ho
    rw [show os = [] from (leaf_out hx).2] at ho
    cases ho
  · intro info os src hx o ho
    rw [show os = [] from (leaf_out hx).2] at ho
    cases ho

theorem comes_form {C : Text → Option Class} {g : Lim} {x : Ext} {y : Bld} {ver : Text} {F : Text → Option Node} {con : Option Text} {parent ty : Text} {v : Val}
    {f : FCls} (hp : y.p = x.p) (hv0 : x.valid [] = false) (hc : C ty = some (.form f)) (hf : Fit C g x y F con parent ty v) :
    Comes (handlers C g x y ver) F (handlerOf g x y ver (.form f)) (own C) con parent ty v := by
  unfold Fit at hf
  rw [hc] at hf
  obtain ⟨u, d, cl, fv, ft, rfl, ha, hg, hf⟩ := hf
  have hf' : FormFit x { y with parent := parent, ver := some ver } g con F f u d cl fv ft := ⟨hf.file, hf.ne, hf.wf, hf.place, hf.type, hf.uuid, hf.pre, hf.data⟩
  refine ⟨?_, ?_, ?_, ?_, ?_, ?_, fun _ _ _ _ => rfl⟩
  · intro r hx
    have hv := (form_back _ _ _ _ _ _ _ _ _ _ _ _ _ hf' hp ha hg (form_out hx).1).2.1
    cases u with
    | nil => rw [hv0] at hv; cases hv
    | cons a b => rfl
  · intro info os src hx
    exact (form_back _ _ _ _ _ _ _ _ _ _ _ _ _ hf' hp ha hg (form_out hx).1).2.2.1
  · intro info os src hx _
    exact (form_out hx).2
  · intro info os src es hx _
    obtain ⟨h1, _, _, h4⟩ := form_back _ _ _ _ _ _ _ _ _ _ _ _ _ hf' hp ha hg (form_out hx).1
    refine ⟨written ((formNames u).map (fun n => (n, F n))), ?_, ?_⟩
    case refine_1 =>
      rw [h1]
      exact h4
    case refine_2 =>
      intro n nd
      unfold own
      rw [hc]
      simp only
      rw [mem_written, List.mem_map]
      constructor
      · rintro ⟨m, hm, he⟩
        obtain ⟨rfl, he2⟩ := Prod.mk.inj he
        exact ⟨hm, he2⟩
      · rintro ⟨hm, he⟩
        exact ⟨n, hm, by rw [he]⟩
  · intro info os src hx o ho
    rw [show os = [] from (form_out hx).2] at ho
    cases ho
  · intro info os src hx o ho
    rw [show os = [] from (form_out hx).2] at ho
    cases ho

/-- what was found by extraction stands in the lists -/
theorem inside_of_kid {C : Text → Option Class} {g : Lim} {x : Ext} {y : Bld} {ver : Text} {F : Text → Option Node} {q ty : Text} {v : Val} {h : Handler}
    {r : Info × List Obj × List (Place Node)} {o : Obj} {con : Option Text} (hf : Fit C g x y F con q ty v) (hk : handlers C g x y ver ty = some h)
    (ho : h.out con F v = some r) (hm : o ∈ r.2.1) : Inside C x.E F ty v (h.con F v) o.ty o.orig := by
  unfold handlers at hk
  rw [Option.map_eq_some_iff] at hk
  obtain ⟨c, hc, rfl⟩ := hk
  rcases class_cases hc hf with ⟨u, d, k, rfl, ha, hf⟩ | ⟨k, rfl⟩ | ⟨t, rfl⟩ | ⟨f, rfl⟩
  · obtain ⟨src, h1, _⟩ := found_at hf ha ho
    obtain ⟨_, _, h3, h4, _⟩ := file_found hf h1
    cases hi : k.cls.includes with
    | false =>
      rw [h3 hi] at hm
      cases hm
    | true =>
      rw [con_at]
      refine .listed hc hf.file (C59_brace_file_round_trip y.win d hf.ne hf.wf) ha hi ?_
      rw [← h4 hi]
      exact List.mem_map.mpr ⟨o, hm, rfl⟩
  · unfold Fit at hf
    rw [hc] at hf
    obtain ⟨l, u, rfl, _⟩ := hf
    simp only [handlerOf, Option.map_eq_some_iff] at ho
    obtain ⟨_, _, rfl⟩ := ho
    cases hm
  · unfold Fit at hf
    rw [hc] at hf
    obtain ⟨u, d, cl, rfl, _⟩ := hf
    rw [(leaf_out ho).2] at hm
    cases hm
  · unfold Fit at hf
    rw [hc] at hf
    obtain ⟨u, d, cl, fv, ft, rfl, _⟩ := hf
    rw [(form_out ho).2] at hm
    cases hm

theorem inside_of_under {C : Text → Option Class} {g : Lim} {x : Ext} {y : Bld} {ver : Text} {F : Text → Option Node} {con : Option Text} {ty : Text} {v : Val}
    (hroot : ∃ q, Fit C g x y F con q ty v) (hin : ∀ con' ty' v', Inside C x.E F ty v con' ty' v' → ∃ q, Fit C g x y F con' q ty' v') {con' : Option Text} {ty' : Text} {v' : Val}
    (hu : Under (handlers C g x y ver) F con ty v con' ty' v') : Inside C x.E F ty v con' ty' v' := by
  induction hu with
  | kid hk ho hm =>
    obtain ⟨q, hq⟩ := hroot
    exact inside_of_kid hq hk ho hm
  | step _ hk ho hm ih =>
    obtain ⟨q, hq⟩ := hin _ _ _ ih
    exact .deeper ih (inside_of_kid hq hk ho hm)

theorem extractKids_all {f : Text → Val → Option (Info × Dir)} : ∀ {os : List Obj} {subs : List (Text × Text × Dir)}, extractKids f os = some subs →
    ∀ o ∈ os, (f o.ty o.orig).isSome = true
  | [], _, _, o, ho => by cases ho
  | a :: r, subs, h, o, ho => by
    rw [extractKids] at h
    simp only [Option.bind_eq_some_iff, Option.map_eq_some_iff] at h
    obtain ⟨q, hq, b, hb, _⟩ := h
    rcases List.mem_cons.mp ho with rfl | ho
    · rw [hq]; rfl
    · exact extractKids_all hb o ho

theorem under_of_inside {C : Text → Option Class} {g : Lim} {x : Ext} {y : Bld} {ver : Text} {F : Text → Option Node} {con' : Option Text} {ty ty' : Text} {v v' : Val}
    (hi : Inside C x.E F ty v con' ty' v') : ∀ n con, (extractTree (handlers C g x y ver) F n con ty v).isSome = true → (∃ q, Fit C g x y F con q ty v) →
    (∀ con2 ty2 v2, Inside C x.E F ty v con2 ty2 v2 → ∃ q, Fit C g x y F con2 q ty2 v2) →
    Under (handlers C g x y ver) F con ty v con' ty' v' ∧ ∃ m, (extractTree (handlers C g x y ver) F m con' ty' v').isSome = true := by
  induction hi with
  | listed hk hF hb ha hinc hm =>
    intro n con hn hroot _
    obtain ⟨q, hq⟩ := hroot
    cases n with
    | zero => rw [extractTree] at hn; cases hn
    | succ n =>
      rw [Option.isSome_iff_exists] at hn
      obtain ⟨t, ht⟩ := hn
      rw [extractTree] at ht
      simp only [Option.bind_eq_some_iff] at ht
      obtain ⟨h, hK, r, hr, subs, hsubs, _⟩ := ht
      have hK' := hK
      unfold handlers at hK'
      rw [hk] at hK'
      cases hK'
      obtain ⟨u, d, k, he, ha', hf⟩ := fit_at hk ha hq
      cases he
      obtain ⟨src, h1, _⟩ := found_at hf ha' hr
      obtain ⟨_, _, _, h4, _⟩ := file_found hf h1
      rw [hf.file] at hF
      cases hF
      rw [C59_brace_file_round_trip y.win d hf.ne hf.wf] at hb
      cases hb
      have hkk := Option.some.inj (ha.symm.trans ha')
      rw [hkk] at hinc
      rw [← h4 hinc, List.mem_map] at hm
      obtain ⟨o, ho, he⟩ := hm
      cases he
      rw [← con_at g x y ver]
      exact ⟨.kid hK hr ho, n, extractKids_all hsubs o ho⟩
  | deeper h1 _ ih1 ih2 =>
    intro n con hn hroot hin
    obtain ⟨u1, m, hm⟩ := ih1 n con hn hroot hin
    obtain ⟨u2, m2, hm2⟩ := ih2 m _ hm (hin _ _ _ h1) (fun con2 ty2 v2 hi2 => hin _ _ _ (.deeper h1 hi2))
    exact ⟨u1.trans u2, m2, hm2⟩

/-- C61 for any listing of the folders, and for files the classes read like the ones that were written (`Like`): see C61_tree. -/
theorem C61_listed (types : List (Text × Text)) (C : Text → Option Class) (g : Lim) (x : Ext) (y : Bld) (ver : Text) (F : Text → Option Node)
    (ord : Text → List Entry → List Entry) (nm : Val → Text) (n : Nat) (con : Option Text) (ty : Text) (v : Val) (parent : Text) (info : Info) (dir dir' : Dir)
    (R : Bool → (Text → Option Node) → (Text → Option Node) → Prop) (hR : Steady (handlers C g x y ver) F R) (hlike : Like (handlers C g x y ver) R ty dir dir')
    (hC : ClassesOk C) (hE : x.E = envOf types C) (hy : y.E = x.E) (hp : y.p = x.p) (hv0 : x.valid [] = false)
    (hord : ∀ id l, (ord id l).Perm l) (hx : extractTree (handlers C g x y ver) F n con ty v = some (info, dir))
    (hroot : Fit C g x y F con parent ty v) (hin : ∀ con' ty' v', Inside C x.E F ty v con' ty' v' → Fit C g x y F con' ['/'] ty' v')
    (hauto : x.auto = true → (types.map (·.2)).Nodup ∧ AutoOk types C g x y ver F nm ty v ∧
      ∀ con' ty' v', Inside C x.E F ty v con' ty' v' → AutoOk types C g x y ver F nm ty' v') :
    ∃ files, buildDir (handlers C g x y ver) ord con parent ty info.name dir' = some ([⟨ty, info.uuid, info.name, v⟩], files) ∧
      ∀ m nd, (m, nd) ∈ files ↔ (m ∈ own C ty v ∨ ∃ con' ty' v', Inside C x.E F ty v con' ty' v' ∧ m ∈ own C ty' v') ∧ F m = some nd := by
  have hroot' : ∃ q, Fit C g x y F con q ty v := ⟨_, hroot⟩
  have hin' : ∀ con' ty' v', Inside C x.E F ty v con' ty' v' → ∃ q, Fit C g x y F con' q ty' v' := fun con' ty' v' h => ⟨_, hin _ _ _ h⟩
  have hcomes : ∀ con1 q ty1 v1 h, Fit C g x y F con1 q ty1 v1 → handlers C g x y ver ty1 = some h →
      (∀ con' ty' v', Inside C x.E F ty1 v1 con' ty' v' → ∃ q, Fit C g x y F con' q ty' v') →
      (x.auto = true → AutoOk types C g x y ver F nm ty1 v1 ∧ ∀ con' ty' v', Inside C x.E F ty1 v1 con' ty' v' → AutoOk types C g x y ver F nm ty' v') →
      Comes (handlers C g x y ver) F h (own C) con1 q ty1 v1 := by
    intro con1 q ty1 v1 h hq hk hi1 ha1
    unfold handlers at hk
    rw [Option.map_eq_some_iff] at hk
    obtain ⟨c, hc, rfl⟩ := hk
    rcases class_cases hc hq with ⟨u, d, k, rfl, ha, hf⟩ | ⟨k, rfl⟩ | ⟨t, rfl⟩ | ⟨f, rfl⟩
    · exact comes_file hC hE hy hp (fun ha => (hauto ha).1) (fun ha => (ha1 ha).1) (fun ha => (ha1 ha).2) hv0 hc ha hf hi1
    · exact comes_inner hC hp hc hq
    · exact comes_leaf hp hv0 hc hq
    · exact comes_form hp hv0 hc hq
  obtain ⟨files, h1, h2⟩ := tree_back (handlers C g x y ver) F (own C) ord hord R hR n con ty v parent info dir dir' hx hlike
    (fun h hk => hcomes _ _ _ _ _ hroot hk hin' (fun ha => (hauto ha).2))
    (fun con' ty' v' hu q h hq hk => by
      have hi := inside_of_under hroot' hin' hu
      exact hcomes _ _ _ _ _ (fit_deeper List.mem_cons_self hq (hin _ _ _ hi)) hk (fun con2 ty2 v2 hi2 => hin' _ _ _ (.deeper hi hi2))
        (fun ha => ⟨(hauto ha).2.2 _ _ _ hi, fun con2 ty2 v2 hi2 => (hauto ha).2.2 _ _ _ (.deeper hi hi2)⟩))
  refine ⟨files, h1, ?_⟩
  intro m nd
  rw [h2 (m, nd)]
  constructor
  · rintro (⟨ha, hb⟩ | ⟨con', ty', v', hu, ha, hb⟩)
    · exact ⟨.inl ha, hb⟩
    · exact ⟨.inr ⟨con', ty', v', inside_of_under hroot' hin' hu, ha⟩, hb⟩
  · rintro ⟨ha | ⟨con', ty', v', hi, ha⟩, hb⟩
    · exact .inl ⟨ha, hb⟩
    · exact .inr ⟨con', ty', v', (under_of_inside hi n con (by rw [hx]; rfl) hroot' hin').1, ha, hb⟩

/-- C61.  Any object with everything nested in it at any depth, of any mixture of classes (with files of their own or kept inside their parent), whatever
the order in which nested objects are delivered, with or without auto_include: if every object is in the layout of the serializer and fit for itself (C33, C49, C52, C57, C59, C60; with auto_include its lists stand in the order of the names),
the build of the extracted tree of folders hands back what stood in the list of the parent and writes exactly the files of the container that belong to
the objects of the tree, each with its content. -/
theorem C61_tree (types : List (Text × Text)) (C : Text → Option Class) (g : Lim) (x : Ext) (y : Bld) (ver : Text) (F : Text → Option Node)
    (ord : Text → List Entry → List Entry) (nm : Val → Text) (n : Nat) (con : Option Text) (ty : Text) (v : Val) (parent : Text) (info : Info) (dir : Dir)
    (hC : ClassesOk C) (hE : x.E = envOf types C) (hy : y.E = x.E) (hp : y.p = x.p) (hv0 : x.valid [] = false)
    (hord : ∀ id l, (ord id l).Perm l) (hx : extractTree (handlers C g x y ver) F n con ty v = some (info, dir))
    (hroot : Fit C g x y F con parent ty v) (hin : ∀ con' ty' v', Inside C x.E F ty v con' ty' v' → Fit C g x y F con' ['/'] ty' v')
    (hauto : x.auto = true → (types.map (·.2)).Nodup ∧ AutoOk types C g x y ver F nm ty v ∧
      ∀ con' ty' v', Inside C x.E F ty v con' ty' v' → AutoOk types C g x y ver F nm ty' v') :
    ∃ files, buildDir (handlers C g x y ver) ord con parent ty info.name dir = some ([⟨ty, info.uuid, info.name, v⟩], files) ∧
      ∀ m nd, (m, nd) ∈ files ↔ (m ∈ own C ty v ∨ ∃ con' ty' v', Inside C x.E F ty v con' ty' v' ∧ m ∈ own C ty' v') ∧ F m = some nd :=
  C61_listed types C g x y ver F ord nm n con ty v parent info dir dir (fun _ S S' => S' = S) (steady_eq _ _) (like_refl _ (fun _ S S' => S' = S) (fun _ _ => rfl) dir ty) hC hE hy hp hv0 hord hx hroot hin hauto

/-- C61 for the container folder: under each name that belongs to the tree the build leaves what was there, and under any other name nothing. -/
theorem C61_container (types : List (Text × Text)) (C : Text → Option Class) (g : Lim) (x : Ext) (y : Bld) (ver : Text) (F : Text → Option Node)
    (ord : Text → List Entry → List Entry) (nm : Val → Text) (n : Nat) (con : Option Text) (ty : Text) (v : Val) (parent : Text) (info : Info) (dir : Dir)
    (hC : ClassesOk C) (hE : x.E = envOf types C) (hy : y.E = x.E) (hp : y.p = x.p) (hv0 : x.valid [] = false)
    (hord : ∀ id l, (ord id l).Perm l) (hx : extractTree (handlers C g x y ver) F n con ty v = some (info, dir))
    (hroot : Fit C g x y F con parent ty v) (hin : ∀ con' ty' v', Inside C x.E F ty v con' ty' v' → Fit C g x y F con' ['/'] ty' v')
    (hauto : x.auto = true → (types.map (·.2)).Nodup ∧ AutoOk types C g x y ver F nm ty v ∧
      ∀ con' ty' v', Inside C x.E F ty v con' ty' v' → AutoOk types C g x y ver F nm ty' v') :
    ∃ files, buildDir (handlers C g x y ver) ord con parent ty info.name dir = some ([⟨ty, info.uuid, info.name, v⟩], files) ∧
      ∀ m, ((m ∈ own C ty v ∨ ∃ con' ty' v', Inside C x.E F ty v con' ty' v' ∧ m ∈ own C ty' v') → folder (files.map (fun p => (p.1, some p.2))) m = F m) ∧
        (¬ (m ∈ own C ty v ∨ ∃ con' ty' v', Inside C x.E F ty v con' ty' v' ∧ m ∈ own C ty' v') → folder (files.map (fun p => (p.1, some p.2))) m = none) := by
  obtain ⟨files, h1, h2⟩ := C61_tree types C g x y ver F ord nm n con ty v parent info dir hC hE hy hp hv0 hord hx hroot hin hauto
  refine ⟨files, h1, ?_⟩
  have hw : written (files.map (fun p => (p.1, some p.2))) = files := by
    unfold written
    rw [List.filterMap_map]
    exact List.filterMap_some
  intro m
  unfold folder
  rw [hw]
  cases hf : files.reverse.find? (fun p => decide (p.1 = m)) with
  | none =>
    refine ⟨?_, fun _ => rfl⟩
    intro hm
    cases hF : F m with
    | none => rfl
    | some nd =>
      have hmem := List.mem_reverse.mpr ((h2 m nd).mpr ⟨hm, hF⟩)
      have := List.find?_eq_none.mp hf _ hmem
      simp at this
  | some p =>
    have hp1 := List.find?_some hf
    rw [decide_eq_true_eq] at hp1
    have hmem := (h2 p.1 p.2).mp (List.mem_reverse.mp (List.mem_of_find?_eq_some hf))
    rw [hp1] at hmem
    refine ⟨fun _ => hmem.2.symm, fun hn => absurd hmem.1 hn⟩

/-! ## what cannot be taken apart or put together -/

theorem under_smaller {K : Text → Option Handler} {F : Text → Option Node} {con con' : Option Text} {ty ty' : Text} {v v' : Val} (hu : Under K F con ty v con' ty' v') :
    ∀ n, (extractTree K F n con ty v).isSome = true → ∃ m, m < n ∧ (extractTree K F m con' ty' v').isSome = true := by
  have base : ∀ {con1 : Option Text} {ty1 : Text} {v1 : Val} {h : Handler} {r : Info × List Obj × List (Place Node)} {o : Obj}, K ty1 = some h → h.out con1 F v1 = some r →
      o ∈ r.2.1 → ∀ n, (extractTree K F n con1 ty1 v1).isSome = true → ∃ m, m < n ∧ (extractTree K F m (h.con F v1) o.ty o.orig).isSome = true := by
    intro con1 ty1 v1 h r o hk ho hm n hn
    cases n with
    | zero => rw [extractTree] at hn; cases hn
    | succ n =>
      rw [Option.isSome_iff_exists] at hn
      obtain ⟨t, ht⟩ := hn
      rw [extractTree] at ht
      simp only [Option.bind_eq_some_iff] at ht
      obtain ⟨h2, hK, r2, hr, subs, hsubs, _⟩ := ht
      rw [hk] at hK
      cases hK
      rw [ho] at hr
      cases hr
      exact ⟨n, Nat.lt_succ_self n, extractKids_all hsubs o hm⟩
  induction hu with
  | kid hk ho hm => exact base hk ho hm
  | step _ hk ho hm ih =>
    intro n hn
    obtain ⟨m, hm1, hm2⟩ := ih n hn
    obtain ⟨m', h1, h2⟩ := base hk ho hm m hm2
    exact ⟨m', by omega, h2⟩

/-- an object that is nested in itself, directly or over others, is never taken apart completely -/
theorem C61_nested_in_itself_neg (K : Text → Option Handler) (F : Text → Option Node) (con con' : Option Text) (ty : Text) (v : Val)
    (h : Under K F con ty v con' ty v) (h' : Under K F con' ty v con' ty v) :
    ∀ n, extractTree K F n con ty v = none := by
  have hloop : ∀ n, extractTree K F n con' ty v = none := by
    intro n
    induction n using Nat.strongRecOn with
    | _ n ih =>
      cases hx : extractTree K F n con' ty v with
      | none => rfl
      | some r =>
        obtain ⟨m, hm, hs⟩ := under_smaller h' n (by rw [hx]; rfl)
        rw [ih m hm] at hs
        cases hs
  intro n
  cases hx : extractTree K F n con ty v with
  | none => rfl
  | some r =>
    obtain ⟨m, hm, hs⟩ := under_smaller h n (by rw [hx]; rfl)
    rw [hloop m] at hs
    cases hs

theorem extractKids_names {f : Text → Val → Option (Info × Dir)} : ∀ {os : List Obj} {subs : List (Text × Text × Dir)}, extractKids f os = some subs →
    subs.map (fun s => some (s.1, s.2.1)) = os.map (fun o => (f o.ty o.orig).map (fun q => (o.ty, q.1.name)))
  | [], subs, h => by rw [extractKids] at h; cases h; rfl
  | a :: r, subs, h => by
    rw [extractKids] at h
    simp only [Option.bind_eq_some_iff, Option.map_eq_some_iff] at h
    obtain ⟨q, hq, b, hb, rfl⟩ := h
    rw [List.map_cons, List.map_cons, extractKids_names hb, hq]
    rfl

/-- two nested objects of one type that are recorded under one name (a prefix that was removed from one of them is enough) cannot be extracted: they
would share a folder -/
theorem C61_same_name_neg (K : Text → Option Handler) (F : Text → Option Node) (con : Option Text) (ty : Text) (v : Val) (h h' : Handler)
    (r : Info × List Obj × List (Place Node)) (a b c : List Obj) (o o' : Obj) (hk : K ty = some h) (ho : h.out con F v = some r)
    (hr : r.2.1 = a ++ o :: b ++ o' :: c) (hty : o.ty = o'.ty) (hk' : K o.ty = some h')
    (hnm : ∀ q q', h'.out (h.con F v) F o.orig = some q → h'.out (h.con F v) F o'.orig = some q' → q.1.name = q'.1.name) : ∀ n, extractTree K F n con ty v = none := by
  intro n
  cases hx : extractTree K F n con ty v with
  | none => rfl
  | some t =>
    exfalso
    cases n with
    | zero => rw [extractTree] at hx; cases hx
    | succ n =>
      rw [extractTree] at hx
      simp only [Option.bind_eq_some_iff] at hx
      obtain ⟨h2, hK, r2, hr2, subs, hsubs, hx⟩ := hx
      rw [hk] at hK
      cases hK
      rw [ho] at hr2
      cases hr2
      by_cases hnd : (subs.map (fun s => (s.1, s.2.1))).Nodup
      case neg => rw [if_neg hnd] at hx; cases hx
      have hnd2 : (subs.map (fun s => some (s.1, s.2.1))).Nodup := by
        have := List.Pairwise.map (S := fun a b => a ≠ b) (some : Text × Text → Option (Text × Text)) (fun a b (hab : a ≠ b) he => hab (Option.some.inj he)) hnd
        rw [List.map_map] at this
        exact this
      rw [extractKids_names hsubs, hr] at hnd2
      have h1 := extractKids_all hsubs o (by rw [hr]; exact List.mem_append_left _ (List.mem_append_right _ List.mem_cons_self))
      have h2 := extractKids_all hsubs o' (by rw [hr]; exact List.mem_append_right _ List.mem_cons_self)
      rw [Option.isSome_iff_exists] at h1 h2
      obtain ⟨q, hq⟩ := h1
      obtain ⟨q', hq'⟩ := h2
      have name_of : ∀ v1 q, extractTree K F n (h.con F v) o.ty v1 = some q → ∃ p, h'.out (h.con F v) F v1 = some p ∧ q.1 = p.1 := by
        intro v1 q hq
        cases n with
        | zero => rw [extractTree] at hq; cases hq
        | succ m =>
          rw [extractTree] at hq
          simp only [Option.bind_eq_some_iff] at hq
          obtain ⟨h2, hK, p, hp, s, _, hq⟩ := hq
          rw [hk'] at hK
          cases hK
          by_cases hn : (s.map (fun s => (s.1, s.2.1))).Nodup
          · rw [if_pos hn] at hq; cases hq; exact ⟨p, hp, rfl⟩
          · rw [if_neg hn] at hq; cases hq
      obtain ⟨p, hp, e⟩ := name_of _ _ hq
      obtain ⟨p', hp', e'⟩ := name_of o'.orig q' (by rw [hty]; exact hq')
      have hsame := hnm p p' hp hp'
      rw [List.map_append, List.map_append, List.map_cons, List.map_cons, hq, hq', List.nodup_append] at hnd2
      refine hnd2.2.2 (some (o.ty, q.1.name)) (List.mem_append_right _ List.mem_cons_self) (some (o'.ty, q'.1.name)) List.mem_cons_self ?_
      rw [e, e', hsame, hty]

/-- C61 is silent about a loss: an object one of whose two JSON files is not there is left out of the build together with everything nested in it,
without an error -/
theorem C61_json_missing_silent (K : Text → Option Handler) (ord : Text → List Entry → List Entry) (con : Option Text) (parent ty nm : Text) (files : List (Place Node))
    (subs : Subs) (h : Handler) (hk : K ty = some h) (hm : h.has (folder files) = false) :
    buildDir K ord con parent ty nm (.mk files subs) = some ([], []) := by
  rw [buildDir]
  simp only [hk]
  rw [if_pos hm]

/-- and if all the nested objects of an object are left out in this way, its build fails -/
theorem C61_only_child_missing_neg (K : Text → Option Handler) (ord : Text → List Entry → List Entry) (con : Option Text) (parent ty nm ty' nm' : Text)
    (files files' : List (Place Node)) (subs : Subs) (h h' : Handler) (hk : K ty = some h) (hk' : K ty' = some h') (hh : h.has (folder files) = true)
    (hkids : h.kids = true) (hm : h'.has (folder files') = false) :
    buildDir K ord con parent ty nm (.mk files (.cons ty' nm' (.mk files' subs) .nil)) = none := by
  rw [buildDir]
  simp only [hk]
  rw [if_neg (by rw [hh]; exact Bool.noConfusion), if_neg (by rw [hkids]; exact fun h => by rcases h with h | h <;> cases h), buildSubs,
    C61_json_missing_silent K ord _ _ ty' nm' files' subs h' hk' hm, buildSubs]
  rfl

/-- a class whose objects list themselves, and one whose objects have one name -/
def toySelf : Handler := ⟨fun _ _ v => some (⟨['u'], ['n'], [], []⟩, [⟨['t'], ['u'], v⟩], []), fun S => (S ['j']).isSome, true, fun _ _ _ _ => none, fun _ _ => none, fun _ => none⟩
def toyLeaf : Handler := ⟨fun _ _ _ => some (⟨['u'], ['n'], [], []⟩, [], []), fun S => (S ['j']).isSome, true, fun _ _ _ _ => none, fun _ _ => none, fun _ => none⟩
def toyPair : Handler := ⟨fun _ _ _ => some (⟨['u'], ['n'], [], []⟩, [⟨['l'], ['1'], .str ['1']⟩, ⟨['l'], ['2'], .str ['2']⟩], []), fun S => (S ['j']).isSome, true, fun _ _ _ _ => none, fun _ _ => none, fun _ => none⟩

example (F : Text → Option Node) (v : Val) : ∀ n, extractTree (fun _ => some toySelf) F n none ['t'] v = none :=
  C61_nested_in_itself_neg _ F none none ['t'] v (.kid (o := ⟨['t'], ['u'], v⟩) (h := toySelf) rfl rfl List.mem_cons_self)
    (.kid (o := ⟨['t'], ['u'], v⟩) (h := toySelf) rfl rfl List.mem_cons_self)

example (F : Text → Option Node) (v : Val) : ∀ n, extractTree (fun t => some (if t = ['p'] then toyPair else toyLeaf)) F n none ['p'] v = none :=
  C61_same_name_neg _ F none ['p'] v toyPair toyLeaf _ [] [] [] ⟨['l'], ['1'], .str ['1']⟩ ⟨['l'], ['2'], .str ['2']⟩ rfl rfl rfl rfl rfl
    (fun q q' h h' => by cases h; cases h'; rfl)

example (ord : Text → List Entry → List Entry) (subs : Subs) : buildDir (fun _ => some toyLeaf) ord none [] ['l'] ['n'] (.mk [] subs) = some ([], []) :=
  C61_json_missing_silent _ ord none [] ['l'] ['n'] [] subs toyLeaf rfl rfl

example (ord : Text → List Entry → List Entry) (subs : Subs) :
    buildDir (fun _ => some toyLeaf) ord none [] ['p'] ['n'] (.mk [(['j'], some (.file []))] (.cons ['l'] ['m'] (.mk [] subs) .nil)) = none :=
  C61_only_child_missing_neg _ ord none [] ['p'] ['n'] ['l'] ['m'] _ [] subs toyLeaf toyLeaf rfl rfl (by decide) rfl rfl

end V8.Tree
