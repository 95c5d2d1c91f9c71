import Verif.Props.Describe
/-
C84: a build does not depend on the order of the workers, on the order in which folders are listed, or on the names of the folders of objects.
-/
namespace V8.Order
open V8.Brace V8.Enc V8.JsonText V8.Header V8.Object V8.Store V8.Tree V8.Module V8.Product
open V8.Nested hiding Handler Env
open V8.Encode (lower)

/-! ### specification -/

/-- What nested objects delivered to their parent can be told apart: no two of one type have the same name, and no two of one type have the same identifier (in any case). -/
structure Distinct (es : List Entry) : Prop where
  names : (es.map (fun e => (e.ty, e.nm))).Nodup
  ids : (es.map (fun e => (e.ty, lower e.uu))).Nodup

/-- a nested object in two source folders: its type, the names of its folder here and there, and what is in it here and there -/
structure Two where
  ty : Text
  nm : Text
  nm' : Text
  dir : Dir
  dir' : Dir

/-- The source folder of an object in another shape: the files are the same, the folders of the nested objects may be listed in another order and may have other names (their types are the same), and so on
downwards. -/
inductive Renamed : Dir → Dir → Prop where
  | mk {f f' : List (Place Node)} {l : List Two} {l' : List (Text × Text × Dir)} (hf : folder f' = folder f) (hp : l'.Perm (l.map (fun q => (q.ty, q.nm', q.dir')))) (hl : ∀ q ∈ l, Renamed q.dir q.dir') :
      Renamed (.mk f (.ofList (l.map (fun q => (q.ty, q.nm, q.dir))))) (.mk f' (.ofList l'))

/-- the folders `t` of nested objects are somewhere in the folders `s` -/
inductive Below : Subs → Subs → Prop where
  | here (s : Subs) : Below s s
  | deeper {l : List (Text × Text × Dir)} {ty nm : Text} {f : List (Place Node)} {t u : Subs} (hm : (ty, nm, Dir.mk f t) ∈ l) (hb : Below t u) : Below (.ofList l) u

/-- At every place in the sources the nested objects that are built there can be told apart. -/
def Unambiguous (K : Text → Option Handler) (s : Subs) : Prop :=
  ∀ t, Below s t → ∀ ord con parent es fs, (∀ id l, (ord id l).Perm l) → buildSubs K ord con parent t = some (es, fs) → Distinct es

/-! ### lists of nested objects -/

theorem Distinct.perm {es es' : List Entry} (h : es'.Perm es) (hd : Distinct es) : Distinct es' :=
  ⟨((h.map _).nodup_iff).mpr hd.names, ((h.map _).nodup_iff).mpr hd.ids⟩

theorem pairs_ofType {α : Type} (g : Entry → α) {es : List Entry} (hn : (es.map (fun e => (e.ty, g e))).Nodup) (ty : Text) : ((ofType ty es).map g).Nodup := by
  have h1 : ((ofType ty es).map (fun e => (e.ty, g e))).Nodup := hn.sublist ((List.filter_sublist (l := es) (p := fun e => decide (e.ty = ty))).map _)
  unfold List.Nodup at h1 ⊢
  rw [List.pairwise_map] at h1 ⊢
  refine h1.imp_of_mem (fun {a b} ha hb hab he => hab ?_)
  have h2 : a.ty = ty := by simpa using (List.mem_filter.mp ha).2
  have h3 : b.ty = ty := by simpa using (List.mem_filter.mp hb).2
  rw [h2, h3, he]

theorem find_perm {α : Type} {p : α → Bool} {l l' : List α} (h : l'.Perm l) (hu : ∀ a ∈ l, ∀ b ∈ l, p a = true → p b = true → a = b) : l'.find? p = l.find? p := by
  cases h1 : l.find? p with
  | none =>
    rw [List.find?_eq_none] at h1 ⊢
    exact fun x hx => h1 x (h.mem_iff.mp hx)
  | some a =>
    cases h2 : l'.find? p with
    | none =>
      rw [List.find?_eq_none] at h2
      exact absurd (List.find?_some h1) (h2 a (h.mem_iff.mpr (List.mem_of_find?_eq_some h1)))
    | some b => rw [hu a (List.mem_of_find?_eq_some h1) b (h.mem_iff.mp (List.mem_of_find?_eq_some h2)) (List.find?_some h1) (List.find?_some h2)]

theorem same_of {α β : Type} {f : α → β} : ∀ {l : List α}, (l.map f).Nodup → ∀ {a b : α}, a ∈ l → b ∈ l → f a = f b → a = b
  | [], _, _, _, ha, _, _ => by cases ha
  | x :: l, h, a, b, ha, hb, he => by
    rw [List.map_cons, List.nodup_cons] at h
    rcases List.mem_cons.mp ha with ha1 | ha2
    · rcases List.mem_cons.mp hb with hb1 | hb2
      · rw [ha1, hb1]
      · exact absurd (show f x ∈ l.map f from List.mem_map.mpr ⟨b, hb2, by rw [← he, ha1]⟩) h.1
    · rcases List.mem_cons.mp hb with hb1 | hb2
      · exact absurd (show f x ∈ l.map f from List.mem_map.mpr ⟨a, ha2, by rw [he, hb1]⟩) h.1
      · exact same_of h.2 ha2 hb2 he

theorem lookup_perm {es es' : List Entry} (h : es'.Perm es) (hn : (es.map (fun e => lower e.uu)).Nodup) (u : Text) : lookup es' u = lookup es u := by
  unfold lookup
  refine find_perm ((List.reverse_perm _).trans (h.trans (List.reverse_perm _).symm)) ?_
  intro a ha b hb h1 h2
  have e : lower a.uu = lower b.uu := (by simpa using h1 : lower a.uu = lower u).trans (by simpa using h2 : lower b.uu = lower u).symm
  exact same_of hn (List.mem_reverse.mp ha) (List.mem_reverse.mp hb) e

theorem items_perm {es es' : List Entry} (h : es'.Perm es) (hn : (es.map (fun e => lower e.uu)).Nodup) : ∀ (n : Nat) (l : List Val), fillItems es' n l = fillItems es n l
  | 0, _ => rfl
  | _ + 1, [] => rfl
  | n + 1, .str u :: r => by rw [fillItems, fillItems, lookup_perm h hn, items_perm h hn n r]
  | _ + 1, .list _ :: _ => rfl
  | _ + 1, .none :: _ => rfl

theorem ofType_perm {es es' : List Entry} (h : es'.Perm es) (ty : Text) : (ofType ty es').Perm (ofType ty es) := h.filter _

theorem slot_perm {E : Nested.Env} {es es' : List Entry} (h : es'.Perm es) (hd : Distinct es) (s : Val) : fillSlot E es' s = fillSlot E es s := by
  have h1 : ∀ ty, sortBy Entry.nm (ofType ty es') = sortBy Entry.nm (ofType ty es) := fun ty =>
    sortBy_congr Entry.nm (ofType_perm h ty) (pairs_ofType Entry.nm (hd.perm h).names ty)
  have h2 : ∀ ty n l, fillItems (ofType ty es') n l = fillItems (ofType ty es) n l := fun ty n l => items_perm (ofType_perm h ty) (pairs_ofType (fun e => lower e.uu) hd.ids ty) n l
  have h3 : ∀ ty, ofType ty es' = [] ↔ ofType ty es = [] := fun ty => ⟨fun h0 => List.Perm.eq_nil (h0 ▸ (ofType_perm h ty).symm), fun h0 => List.Perm.eq_nil (h0 ▸ ofType_perm h ty)⟩
  cases s with
  | none => rfl
  | str ty => rw [fillSlot, fillSlot, h1]
  | list l =>
    cases l with
    | nil => rfl
    | cons t l =>
      cases l with
      | nil => rfl
      | cons n l =>
        cases n with
        | none => rfl
        | list _ => rfl
        | str n =>
          rw [fillSlot, fillSlot]
          simp only [h2, h3]

theorem slots_perm {E : Nested.Env} {es es' : List Entry} (h : es'.Perm es) (hd : Distinct es) : ∀ (n : Nat) (l : List Val), fillSlots E es' n l = fillSlots E es n l
  | 0, _ => rfl
  | _ + 1, [] => rfl
  | n + 1, s :: r => by rw [fillSlots, fillSlots, slot_perm h hd s, slots_perm h hd n r]

theorem include_perm {E : Nested.Env} {es es' : List Entry} (h : es'.Perm es) (hd : Distinct es) (l : List Val) : fillInclude E es' l = fillInclude E es l := by
  unfold fillInclude
  split
  · simp only [slots_perm h hd]
  · rfl

theorem nil_perm {es es' : List Entry} (h : es'.Perm es) : es' = [] ↔ es = [] := ⟨fun h0 => List.Perm.eq_nil (h0 ▸ h.symm), fun h0 => List.Perm.eq_nil (h0 ▸ h)⟩

theorem built_perm {E : Nested.Env} {product auto : Bool} {es es' : List Entry} (h : es'.Perm es) (hd : Distinct es) (l : List Val) : buildInclude E product auto es' l = buildInclude E product auto es l := by
  unfold buildInclude
  simp only [nil_perm h, include_perm h hd]

/-! ### one object -/

/-- two settings of a build that differ in the id of the parent only, both at the top level or both below -/
theorem head_parent {p a b : Text} (h : '/' ∈ a ↔ '/' ∈ b) (i : Info) (l : List Val) : encodeHeader p a i l = encodeHeader p b i l := by
  unfold encodeHeader
  simp only [h]

theorem val_order {y : Bld} {a b : Text} {c : Cls} {es es' : List Entry} {s : Object.Src} (hp : '/' ∈ a ↔ '/' ∈ b) (h : es'.Perm es) (hd : Distinct es) :
    buildVal { y with parent := a } c es' s = buildVal { y with parent := b } c es s := by
  have hi : ∀ r, putIncludes { y with parent := a } c es' r = putIncludes { y with parent := b } c es r := by
    intro r
    unfold putIncludes
    simp only [built_perm h hd]
  unfold buildVal
  simp only [hi, head_parent hp]
  rfl

theorem nil_distinct : Distinct [] := ⟨List.nodup_nil, List.nodup_nil⟩

theorem full_order {y : Bld} {a b : Text} {k : Kind} {es es' : List Entry} {S : Text → Option Bytes} (hp : '/' ∈ a ↔ '/' ∈ b) (h : es'.Perm es) (hd : Distinct es) :
    buildFull { y with parent := a } k es' S = buildFull { y with parent := b } k es S := by
  unfold buildFull
  simp only [val_order hp h hd]

theorem inner_order {y : Bld} {a b : Text} {k : Kind} {S : Text → Option Bytes} (hp : '/' ∈ a ↔ '/' ∈ b) : innerFull { y with parent := a } k S = innerFull { y with parent := b } k S := by
  unfold innerFull
  simp only [val_order hp (.refl _) nil_distinct]

theorem leaf_order {x : Ext} {y : Bld} {a b : Text} {t : V8.Leaf.Leaf} {S : Text → Option Node} (hp : '/' ∈ a ↔ '/' ∈ b) :
    V8.Leaf.leafBack x { y with parent := a } t S = V8.Leaf.leafBack x { y with parent := b } t S := by
  unfold V8.Leaf.leafBack
  simp only [val_order hp (.refl _) nil_distinct]

theorem form_order {y : Bld} {a b : Text} {g : V8.FormObj.Lim} {con : Option Text} {f : V8.FormObj.FCls} {S : Text → Option Node} (hp : '/' ∈ a ↔ '/' ∈ b) :
    V8.FormObj.formBack { y with parent := a } g con f S = V8.FormObj.formBack { y with parent := b } g con f S := by
  unfold V8.FormObj.formBack
  simp only [val_order hp (.refl _) nil_distinct]

/-- an object is built the same way whatever the order of what it is delivered and whatever the names of the folders it is in -/
def Fair (h : Handler) : Prop := ∀ con a b es es' S, ('/' ∈ a ↔ '/' ∈ b) → es'.Perm es → Distinct es → h.back con a es' S = h.back con b es S

theorem classes_fair (C : Text → Option Class) (g : V8.FormObj.Lim) (x : Ext) (y : Bld) (ver : Text) {ty : Text} {h : Handler} (hk : handlers C g x y ver ty = some h) : Fair h := by
  unfold handlers at hk
  rw [Option.map_eq_some_iff] at hk
  obtain ⟨c, _, rfl⟩ := hk
  intro con a b es es' S hp hes hd
  cases c with
  | file k => exact full_order (y := { y with ver := some ver }) hp hes hd
  | pick n k rest =>
    show ((fileIn S (objName k.name)).bind readFile).bind _ = ((fileIn S (objName k.name)).bind readFile).bind _
    simp only [full_order (y := { y with ver := some ver }) hp hes hd]
  | inner k => exact inner_order (y := { y with ver := some ver }) hp
  | leaf t => exact leaf_order (y := { y with ver := some ver }) hp
  | form f => exact form_order (y := { y with ver := some ver }) hp

/-! ### trees -/

theorem id_slash (p ty nm : Text) : '/' ∈ idOf p ty nm := List.mem_append_right _ List.mem_cons_self

theorem subs_order {K : Text → Option Handler} {ord ord' : Text → List Entry → List Entry} {con : Option Text} {a b : Text} : ∀ l : List Two,
    (∀ q ∈ l, ∀ es fs, buildDir K ord con a q.ty q.nm q.dir = some (es, fs) → ∃ fs', buildDir K ord' con b q.ty q.nm' q.dir' = some (es, fs') ∧ fs'.Perm fs) →
    ∀ es fs, buildSubs K ord con a (.ofList (l.map (fun q => (q.ty, q.nm, q.dir)))) = some (es, fs) →
      ∃ fs', buildSubs K ord' con b (.ofList (l.map (fun q => (q.ty, q.nm', q.dir')))) = some (es, fs') ∧ fs'.Perm fs
  | [], _, es, fs, h => ⟨fs, by rw [List.map_nil, Subs.ofList, buildSubs] at h ⊢; exact h, .refl _⟩
  | q :: l, hl, es, fs, h => by
    rw [List.map_cons, Subs.ofList, buildSubs] at h
    simp only [Option.bind_eq_some_iff, Option.map_eq_some_iff] at h
    obtain ⟨⟨e1, f1⟩, h1, ⟨e2, f2⟩, h2, h3⟩ := h
    rw [Prod.mk.injEq] at h3
    obtain ⟨rfl, rfl⟩ := h3
    obtain ⟨f1', g1, p1⟩ := hl q List.mem_cons_self _ _ h1
    obtain ⟨f2', g2, p2⟩ := subs_order l (fun q hq => hl q (List.mem_cons_of_mem _ hq)) _ _ h2
    refine ⟨f1' ++ f2', ?_, p1.append p2⟩
    rw [List.map_cons, Subs.ofList, buildSubs, g1, Option.bind_some, g2]
    rfl

theorem isNil_order {l : List Two} {l' : List (Text × Text × Dir)} (hp : l'.Perm (l.map (fun q => (q.ty, q.nm', q.dir')))) :
    (Subs.ofList l').isNil = true ↔ (Subs.ofList (l.map (fun q => (q.ty, q.nm, q.dir)))).isNil = true := by
  rw [ofList_isNil, ofList_isNil]
  constructor
  · rintro rfl
    have := hp.length_eq
    rw [List.length_nil, List.length_map] at this
    rw [List.eq_nil_of_length_eq_zero this.symm]
    rfl
  · intro h
    rw [List.map_eq_nil_iff] at h
    subst h
    exact hp.eq_nil

theorem dir_order {K : Text → Option Handler} {ord ord' : Text → List Entry → List Entry} (hK : ∀ ty h, K ty = some h → Fair h) (hord : ∀ id l, (ord id l).Perm l)
    (hord' : ∀ id l, (ord' id l).Perm l) {d d' : Dir} (hr : Renamed d d') : ∀ (con : Option Text) (a b ty nm nm' : Text) (es : List Entry) (fs : List (Text × Node)), ('/' ∈ a ↔ '/' ∈ b) →
    (∀ f t, d = .mk f t → Unambiguous K t) → buildDir K ord con a ty nm d = some (es, fs) → ∃ fs', buildDir K ord' con b ty nm' d' = some (es, fs') ∧ fs'.Perm fs := by
  induction hr with
  | @mk f f' l l' hf hp hl ih =>
    intro con a b ty nm nm' es fs hab hun h
    have hun := hun _ _ rfl
    rw [buildDir] at h ⊢
    cases hk : K ty with
    | none => rw [hk] at h; cases h
    | some hd =>
      rw [hk] at h
      simp only at h ⊢
      rw [hf]
      have hfair := hK _ _ hk
      by_cases h0 : hd.has (folder f) = false
      · rw [if_pos h0] at h ⊢
        exact ⟨fs, h, .refl _⟩
      · rw [if_neg h0] at h ⊢
        simp only [isNil_order hp]
        by_cases h1 : hd.kids = false ∨ (Subs.ofList (l.map (fun q => (q.ty, q.nm, q.dir)))).isNil = true
        · rw [if_pos h1] at h ⊢
          rw [← hfair con a b [] [] _ hab (.refl _) nil_distinct]
          exact ⟨fs, h, .refl _⟩
        · rw [if_neg h1] at h ⊢
          simp only [Option.bind_eq_some_iff] at h
          obtain ⟨⟨e1, f1⟩, h2, h3⟩ := h
          simp only at h3
          obtain ⟨f2, g1, g2⟩ := subs_order (ord' := ord') (b := idOf b ty nm') l (fun q hq es fs hb => ih q hq _ _ _ _ _ _ _ _ ⟨fun _ => id_slash _ _ _, fun _ => id_slash _ _ _⟩
            (fun f t he u hu => hun u (.deeper (List.mem_map.mpr ⟨q, hq, by rw [he]⟩) hu)) hb) _ _ h2
          obtain ⟨e2, f3, g3, g4, g5⟩ := buildSubs_perm K ord' _ _ hp g1
          by_cases h4 : e1 = []
          · rw [if_pos h4] at h3; cases h3
          · rw [if_neg h4, Option.map_eq_some_iff] at h3
            obtain ⟨⟨gv, f4⟩, h5, h6⟩ := h3
            rw [Prod.mk.injEq] at h6
            obtain ⟨rfl, rfl⟩ := h6
            have hdist : Distinct e1 := hun _ (.here _) _ _ _ _ _ hord h2
            have h7 : hd.back con b (ord' (idOf b ty nm') e2) (folder f) = some (gv, f4) := by
              rw [← h5]
              exact (hfair con a b _ _ _ hab (((hord _ _).trans g4.symm).trans (hord' _ _).symm) (hdist.perm ((hord' _ _).trans g4))).symm
            refine ⟨f3 ++ f4, ?_, (g5.trans g2).append_right _⟩
            rw [g3, Option.bind_some, if_neg (by rw [nil_perm g4]; exact h4), h7]
            rfl

/-! ### back again -/

theorem perm_lift {α β : Type} (f : α → β) {l' : List β} {m : List β} (hp : l'.Perm m) : ∀ l : List α, m = l.map f → ∃ l0 : List α, l0.Perm l ∧ l' = l0.map f := by
  induction hp with
  | nil => intro l h; exact ⟨[], by rw [List.map_eq_nil_iff.mp h.symm], rfl⟩
  | cons x _ ih =>
    intro l h
    cases l with
    | nil => cases h
    | cons y l =>
      rw [List.map_cons, List.cons.injEq] at h
      obtain ⟨l0, h1, h2⟩ := ih l h.2
      exact ⟨y :: l0, h1.cons y, by rw [List.map_cons, ← h2, h.1]⟩
  | swap x y r =>
    intro l h
    match l, h with
    | a :: b :: l, h =>
      simp only [List.map_cons, List.cons.injEq] at h
      exact ⟨b :: a :: l, .swap _ _ _, by rw [List.map_cons, List.map_cons, ← h.1, ← h.2.1, ← h.2.2]⟩
  | trans _ _ ih1 ih2 =>
    intro l h
    obtain ⟨l1, h1, h2⟩ := ih2 l h
    obtain ⟨l0, h3, h4⟩ := ih1 l1 h2
    exact ⟨l0, h3.trans h1, h4⟩

def Two.swap (q : Two) : Two := ⟨q.ty, q.nm', q.nm, q.dir', q.dir⟩

theorem Renamed.symm {d d' : Dir} (h : Renamed d d') : Renamed d' d := by
  induction h with
  | @mk f f' l l' hf hp hl ih =>
    obtain ⟨l0, h1, rfl⟩ := perm_lift (fun q : Two => (q.ty, q.nm', q.dir')) hp l rfl
    have := Renamed.mk (l := l0.map Two.swap) (l' := l.map (fun q => (q.ty, q.nm, q.dir))) hf.symm (by
      rw [List.map_map]
      exact (h1.symm.map (fun q : Two => (q.ty, q.nm, q.dir)))) (by
      intro q hq
      obtain ⟨q0, hq0, rfl⟩ := List.mem_map.mp hq
      exact ih q0 (h1.mem_iff.mp hq0))
    rw [List.map_map] at this
    exact this

/-- folders with other names hold objects that can be told apart as well -/
theorem Unambiguous.renamed {K : Text → Option Handler} (hK : ∀ ty h, K ty = some h → Fair h) {d d' : Dir} (hr : Renamed d d') (hu : ∀ f t, d = .mk f t → Unambiguous K t) :
    ∀ f t, d' = .mk f t → Unambiguous K t := by
  induction hr with
  | @mk f f' l l' hf hp hl ih =>
    rintro _ _ he
    cases he
    have hun := hu _ _ rfl
    have hin : ∀ q ∈ l, ∀ g t, q.dir' = .mk g t → Unambiguous K t := fun q hq => ih q hq (fun g t he u hb => hun u (.deeper (List.mem_map.mpr ⟨q, hq, by rw [he]⟩) hb))
    intro t hb
    generalize hs : Subs.ofList l' = s at hb
    cases hb with
    | here =>
      subst hs
      intro ord con parent es fs hord h
      obtain ⟨es1, fs1, h1, h2, _⟩ := buildSubs_perm K ord con parent hp.symm h
      have hsw : (l.map Two.swap).map (fun q => (q.ty, q.nm, q.dir)) = l.map (fun q => (q.ty, q.nm', q.dir')) := by rw [List.map_map]; rfl
      have hsw' : (l.map Two.swap).map (fun q => (q.ty, q.nm', q.dir')) = l.map (fun q => (q.ty, q.nm, q.dir)) := by rw [List.map_map]; rfl
      obtain ⟨fs2, h3, _⟩ := subs_order (K := K) (ord := ord) (ord' := ord) (con := con) (a := parent) (b := parent) (l.map Two.swap) (by
        intro q hq es fs hb
        obtain ⟨q0, hq0, rfl⟩ := List.mem_map.mp hq
        exact dir_order hK hord hord (hl q0 hq0).symm _ _ _ _ _ _ _ _ Iff.rfl (hin q0 hq0) hb) es1 fs1 (by rw [hsw]; exact h1)
      rw [hsw'] at h3
      exact (hun _ (.here _) _ _ _ _ _ hord h3).perm h2.symm
    | @deeper l1 ty nm g t u hm hb =>
      cases ofList_inj hs
      have := hp.mem_iff.mp hm
      obtain ⟨q, hq, he⟩ := List.mem_map.mp this
      simp only [Prod.mk.injEq] at he
      exact hin q hq g t he.2.2 _ hb

end V8.Order
