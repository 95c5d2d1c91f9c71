import Verif.Props.Order
import Verif.Props.Folders
/-
C84: two builds of one product.
-/
namespace V8.Order
open V8.Brace V8.Enc V8.JsonText V8.Header V8.Store V8.Tree V8.Module V8.Product
open V8.Nested hiding Handler Env
open V8.Object hiding Cls
open V8.Misc (Cls)
open V8.Root (rootIn listsIn listPaths putLists conIn versionsIn buildProduct buildFrom)

/-- The files `fs` and `fs'` of a product are the same, in some order; only the table of versions may name them in another order and with other random identifiers (an extension has no such table). -/
def SameFiles (c : Cls) (win : Bool) (rnd rnd' : Nat → Text) (fs fs' : List (Text × Node)) : Prop :=
  ∃ a a' names names', fs = a ++ versionsIn c win rnd names ∧ fs' = a' ++ versionsIn c win rnd' names' ∧ a'.Perm a ∧ names'.Perm names

theorem put_perm {E : Nested.Env} {es es' : List Entry} (h : es'.Perm es) (hd : Distinct es) : ∀ (ps : List (List Nat)) (v : Val), putLists E es' ps v = putLists E es ps v
  | [], _ => rfl
  | p :: ps, v => by
    have hf : putLists E es' ps = putLists E es ps := funext (put_perm h hd ps)
    rw [putLists, putLists, hf]
    simp only [include_perm h hd]

theorem lists_perm {e : V8.Root.Env} {c : Cls} {es es' : List Entry} (h : es'.Perm es) (hd : Distinct es) (v : Val) : listsIn e c es' v = listsIn e c es v := by
  unfold listsIn
  simp only [nil_perm h, put_perm h hd]

theorem root_order {e : V8.Root.Env} {rnd' : Nat → Text} {c : Cls} {ver file : Text} {made made' : List Text} {es es' : List Entry} {S : Text → Option Bytes} {j : JT} (hm : made'.Perm made) (h : es'.Perm es)
    (hd : Distinct es) {r : List (Text × Node)} (hr : rootIn e c ver file made es S j = some r) :
    ∃ r', rootIn { e with rnd := rnd' } c ver file made' es' S j = some r' ∧ ∃ a names names', r = a ++ versionsIn c e.y.win e.rnd names ∧ r' = a ++ versionsIn c e.y.win rnd' names' ∧ names'.Perm names := by
  unfold rootIn at hr ⊢
  simp only [Option.bind_eq_some_iff, Option.map_eq_some_iff] at hr ⊢
  obtain ⟨u, h1, fu, h2, hv, h3, v8, h4, hr⟩ := hr
  by_cases hc : V8.Misc.checkVersion e.tool v8 ≠ .ok ()
  · rw [if_pos hc] at hr; cases hr
  rw [if_neg hc] at hr
  simp only [Option.bind_eq_some_iff, Option.map_eq_some_iff] at hr
  obtain ⟨o, h5, w1, h6, w2, h7, d, h8, front, h9, parts, h10, infos, h11, h12⟩ := hr
  refine ⟨_, ⟨u, h1, fu, h2, hv, h3, v8, h4, ?_⟩, written (front ++ parts ++ infos), _, made' ++ (written front).map (·.1) ++ ["versions".toList] ++ (written parts).map (·.1), h12.symm, rfl, ?_⟩
  · rw [if_neg hc]
    simp only [Option.bind_eq_some_iff, Option.map_eq_some_iff]
    have h7' : listsIn { e with rnd := rnd' } c es' w1 = some w2 := (lists_perm h hd w1).trans h7
    exact ⟨o, h5, w1, h6, w2, h7', d, h8, front, h9, parts, h10, infos, h11, rfl⟩
  · exact ((hm.append_right _).append_right _).append_right _

theorem product_order (K : Text → Text → Text → Option Handler) (hK : ∀ v p ty h, K v p ty = some h → Fair h) (e : V8.Root.Env) (rnd' : Nat → Text) (ord ord' : Text → List Entry → List Entry)
    (shuf shuf' : List Text → List Text) (file : Text) (hord : ∀ id l, (ord id l).Perm l) (hord' : ∀ id l, (ord' id l).Perm l) (hshuf : ∀ l, (shuf l).Perm l) (hshuf' : ∀ l, (shuf' l).Perm l)
    (f : List (Place Node)) (s : Subs) (d' : Dir) (hr : Renamed (.mk f s) d') (hu : ∀ v p, Unambiguous (K v p) s) (c : Cls) (fs : List (Text × Node)) (h : buildProduct e K ord shuf file (.mk f s) = some (c, fs)) :
    ∃ fs', buildProduct { e with rnd := rnd' } K ord' shuf' file d' = some (c, fs') ∧ SameFiles c e.y.win e.rnd rnd' fs fs' := by
  cases hr with
  | @mk _ f' l l' hf hp hl =>
    unfold buildProduct buildFrom at h ⊢
    simp only [] at h ⊢
    rw [hf]
    simp only [Option.bind_eq_some_iff, Option.map_eq_some_iff] at h ⊢
    obtain ⟨ty, h1, bo, h2, j, h3, cv, h4, o, h5, ⟨es, f1⟩, h6, f2, h7, h8⟩ := h
    rw [Prod.mk.injEq] at h8
    obtain ⟨rfl, rfl⟩ := h8
    have hun := hu cv.2 o.productVersion
    have hsub : ∀ q ∈ l, ∀ es fs, buildDir (K cv.2 o.productVersion) ord (conIn cv.1 j) (V8.Root.kindOf cv.1).name q.ty q.nm q.dir = some (es, fs) →
        ∃ fs', buildDir (K cv.2 o.productVersion) ord' (conIn cv.1 j) (V8.Root.kindOf cv.1).name q.ty q.nm' q.dir' = some (es, fs') ∧ fs'.Perm fs := fun q hq es fs hb =>
      dir_order (hK cv.2 o.productVersion) hord hord' (hl q hq) _ _ _ _ _ _ _ _ Iff.rfl (fun f t he u hu => hun u (.deeper (List.mem_map.mpr ⟨q, hq, by rw [he]⟩) hu)) hb
    obtain ⟨f3, g1, g2⟩ := subs_order l hsub _ _ h6
    obtain ⟨es', f4, g3, g4, g5⟩ := buildSubs_perm _ ord' _ _ hp g1
    have hdist : Distinct es := hun _ (.here _) _ _ _ _ _ hord h6
    have hfs : f4.Perm f1 := g5.trans g2
    obtain ⟨r', g6, a, names, names', g7, g8, g9⟩ := root_order (rnd' := rnd') (made' := shuf' (f4.map (·.1))) (es' := ord' (V8.Root.kindOf cv.1).name es')
      (((hshuf' _).trans (hfs.map (·.1))).trans (hshuf _).symm) (((hord' _ es').trans g4).trans (hord _ _).symm) (hdist.perm (hord _ _)) h7
    refine ⟨f4 ++ r', ⟨ty, h1, bo, h2, j, h3, cv, h4, o, h5, (es', f4), g3, r', g6, rfl⟩, f1 ++ a, f4 ++ a, names, names', ?_, ?_, hfs.append_right _, g9⟩
    · simp only [g7, List.append_assoc]
    · simp only [g8, List.append_assoc]

/-- **C84, two builds of one product.**  Source folders are built.  In the same sources the folders of the objects are renamed, at any depth; they are listed in any other order, the workers deliver in any
other order (`ord`, `shuf`), and other random identifiers are drawn.  If the nested objects can be told apart everywhere, the build succeeds too and writes the same files. -/
theorem C84_product (C : Text → Option Class) (g : V8.FormObj.Lim) (e : V8.Root.Env) (rnd' : Nat → Text) (ord ord' : Text → List Entry → List Entry) (shuf shuf' : List Text → List Text) (file : Text)
    (hord : ∀ id l, (ord id l).Perm l) (hord' : ∀ id l, (ord' id l).Perm l) (hshuf : ∀ l, (shuf l).Perm l) (hshuf' : ∀ l, (shuf' l).Perm l) (f : List (Place Node)) (s : Subs) (d' : Dir)
    (hr : Renamed (.mk f s) d') (hu : ∀ v p, Unambiguous (handlers C g e.x { e.y with prod := p } v) s) (c : Cls) (fs : List (Text × Node))
    (h : buildProduct e (fun v p => handlers C g e.x { e.y with prod := p } v) ord shuf file (.mk f s) = some (c, fs)) :
    ∃ fs', buildProduct { e with rnd := rnd' } (fun v p => handlers C g e.x { e.y with prod := p } v) ord' shuf' file d' = some (c, fs') ∧ SameFiles c e.y.win e.rnd rnd' fs fs' :=
  product_order (fun v p => handlers C g e.x { e.y with prod := p } v) (fun _ _ _ _ hk => classes_fair C g e.x _ _ hk) e rnd' ord ord' shuf shuf' file hord hord' hshuf hshuf' f s d' hr hu c fs h

/-- **C84, the outcome.**  Under the same conditions one of the two builds fails exactly if the other one does. -/
theorem C84_outcome (C : Text → Option Class) (g : V8.FormObj.Lim) (e : V8.Root.Env) (rnd' : Nat → Text) (ord ord' : Text → List Entry → List Entry) (shuf shuf' : List Text → List Text) (file : Text)
    (hord : ∀ id l, (ord id l).Perm l) (hord' : ∀ id l, (ord' id l).Perm l) (hshuf : ∀ l, (shuf l).Perm l) (hshuf' : ∀ l, (shuf' l).Perm l) (f : List (Place Node)) (s : Subs) (d' : Dir)
    (hr : Renamed (.mk f s) d') (hu : ∀ v p, Unambiguous (handlers C g e.x { e.y with prod := p } v) s) :
    buildProduct e (fun v p => handlers C g e.x { e.y with prod := p } v) ord shuf file (.mk f s) = none ↔
      buildProduct { e with rnd := rnd' } (fun v p => handlers C g e.x { e.y with prod := p } v) ord' shuf' file d' = none := by
  obtain ⟨f', s'⟩ := d'
  have hu' : ∀ v p, Unambiguous (handlers C g e.x { e.y with prod := p } v) s' := fun v p =>
    Unambiguous.renamed (fun _ _ hk => classes_fair C g e.x _ _ hk) hr (fun _ _ he => by cases he; exact hu v p) _ _ rfl
  constructor
  · intro h
    cases h1 : buildProduct { e with rnd := rnd' } (fun v p => handlers C g e.x { e.y with prod := p } v) ord' shuf' file (.mk f' s') with
    | none => rfl
    | some r =>
      obtain ⟨fs, h2, _⟩ := C84_product C g { e with rnd := rnd' } e.rnd ord' ord shuf' shuf file hord' hord hshuf' hshuf f' s' (.mk f s) hr.symm hu' r.1 r.2 h1
      exact absurd (h.symm.trans h2) (fun hh => by cases hh)
  · intro h
    cases h1 : buildProduct e (fun v p => handlers C g e.x { e.y with prod := p } v) ord shuf file (.mk f s) with
    | none => rfl
    | some r =>
      obtain ⟨fs, h2, _⟩ := C84_product C g e rnd' ord ord' shuf shuf' file hord hord' hshuf hshuf' f s (.mk f' s') hr hu r.1 r.2 h1
      exact absurd (h.symm.trans h2) (fun hh => by cases hh)

/-- the files by name -/
theorem SameFiles.files {c : Cls} {win : Bool} {rnd rnd' : Nat → Text} {fs fs' : List (Text × Node)} (h : SameFiles c win rnd rnd' fs fs') (x : Text) (nd : Node) (hx : x ≠ "versions".toList) :
    (x, nd) ∈ fs' ↔ (x, nd) ∈ fs := by
  obtain ⟨a, a', n, n', rfl, rfl, hp, _⟩ := h
  have hv : ∀ r m, (x, nd) ∉ versionsIn c win r m := by
    intro r m hm
    cases c <;> simp only [versionsIn, List.mem_singleton, List.not_mem_nil, Prod.mk.injEq] at hm <;> exact hx hm.1
  rw [List.mem_append, List.mem_append, hp.mem_iff]
  simp only [hv, or_false]

/-- **C84, objects with the same name.**  Two objects of one type with the same name stand in the list of the type in the order in which the workers delivered them: the product depends on the schedule. -/
theorem C84_same_name_neg (E : Nested.Env) (x y : Entry) (u : Text) (hty : y.ty = x.ty) (hnm : y.nm = x.nm) (hu : E.uuidOf x.ty = some u) (hne : x.data ≠ y.data) :
    fillSlot E [x, y] (.str x.ty) = some (V8.Folders.listOf u [x.data, y.data]) ∧ fillSlot E [y, x] (.str x.ty) = some (V8.Folders.listOf u [y.data, x.data]) ∧
      fillSlot E [x, y] (.str x.ty) ≠ fillSlot E [y, x] (.str x.ty) := by
  have key : ∀ a b : Entry, a.ty = x.ty → b.ty = x.ty → a.nm = b.nm → fillSlot E [a, b] (.str x.ty) = some (V8.Folders.listOf u [a.data, b.data]) := by
    intro a b ha hb hab
    have h1 : ofType x.ty [a, b] = [a, b] := by unfold ofType; simp [ha, hb]
    have h2 : sortBy Entry.nm [a, b] = [a, b] := by
      have hle : textLe b.nm b.nm = true := textLe_refl _
      simp only [sortBy, insertBy, hab, hle, if_true]
    rw [fillSlot, hu, h1, h2]
    rfl
  have h1 := key x y rfl hty hnm.symm
  have h2 := key y x hty rfl hnm
  refine ⟨h1, h2, ?_⟩
  rw [h1, h2]
  intro h
  simp only [V8.Folders.listOf, Option.some.injEq, Val.list.injEq, List.cons.injEq, and_true, true_and] at h
  exact hne h.2.1
end V8.Order
