import Verif.Props.Tree
/-
C80, the part on nested objects: extraction of an object reads nothing but the files of the object and of what is nested in it.
-/
namespace V8.Store
open V8.Brace V8.Enc V8.JsonText V8.Header V8.Nested V8.Object

theorem fileAt_local {F F' : Text → Option Node} {n : Text} (h : F' n = F n) : fileAt F' n = fileAt F n := by
  unfold fileAt
  rw [h]

theorem codesOut_local {win cd : Bool} {k : Text} {F F' : Text → Option Node} {u : Text} : ∀ {l : List (Text × Text)}, (∀ c ∈ l, F' (dot u c.2) = F (dot u c.2)) →
    codesOut win cd k F' u l = codesOut win cd k F u l
  | [], _ => rfl
  | c :: r, h => by
    rw [codesOut, codesOut, codesOut_local (l := r) (fun c hc => h c (List.mem_cons_of_mem _ hc))]
    unfold codeOut
    rw [h c List.mem_cons_self]

theorem helpOut_local {k : Text} {F F' : Text → Option Node} {u : Text} {o : Option Text} (h : ∀ s, o = some s → F' (dot u s) = F (dot u s)) :
    helpOut k F' u o = helpOut k F u o := by
  cases o with
  | none => rfl
  | some s => rw [helpOut, helpOut, fileAt_local (h s rfl)]

theorem blobsOut_local {F F' : Text → Option Node} {u : Text} : ∀ {l : List (Text × Text)}, (∀ c ∈ l, F' (dot u c.1) = F (dot u c.1)) →
    blobsOut F' u l = blobsOut F u l
  | [], _ => rfl
  | c :: r, h => by
    rw [blobsOut, blobsOut, blobsOut_local (l := r) (fun c hc => h c (List.mem_cons_of_mem _ hc)), fileAt_local (h c List.mem_cons_self)]

theorem infoOut_local {F F' : Text → Option Node} {u : Text} {o : Option Text} (h : ∀ s, o = some s → F' (dot u s) = F (dot u s)) :
    infoOut F' u o = infoOut F u o := by
  cases o with
  | none => rfl
  | some s => rw [infoOut, infoOut, fileAt_local (h s rfl)]

theorem partsOut_local {win : Bool} {k : Kind} {F F' : Text → Option Node} {u : Text} (h : ∀ m ∈ names k u, F' m = F m) : partsOut win k F' u = partsOut win k F u := by
  have hm : ∀ m, (m ∈ k.help.toList.map (dot u) ∨ m ∈ k.blobs.map (fun c => dot u c.1) ∨ m ∈ k.codes.map (fun c => dot u c.2) ∨ m ∈ k.info.toList.map (dot u)) → F' m = F m := by
    intro m hm
    apply h
    unfold names
    simp only [List.mem_append, List.mem_cons]
    rcases hm with h | h | h | h
    · exact .inl (.inl (.inl h))
    · exact .inl (.inl (.inr h))
    · exact .inl (.inr (.inr h))
    · exact .inr h
  unfold partsOut
  rw [helpOut_local (fun s hs => hm _ (.inl (by rw [hs]; exact List.mem_map.mpr ⟨s, List.mem_cons_self, rfl⟩))),
    blobsOut_local (fun c hc => hm _ (.inr (.inl (List.mem_map.mpr ⟨c, hc, rfl⟩)))),
    codesOut_local (fun c hc => hm _ (.inr (.inr (.inl (List.mem_map.mpr ⟨c, hc, rfl⟩))))),
    infoOut_local (fun s hs => hm _ (.inr (.inr (.inr (by rw [hs]; exact List.mem_map.mpr ⟨s, List.mem_cons_self, rfl⟩)))))]

theorem self_name (k : Kind) (u : Text) : u ∈ names k u := by
  unfold names
  simp only [List.mem_append, List.mem_cons]
  exact .inl (.inr (.inl trivial))

theorem extractAll_local {x : Ext} {k : Kind} {ver : Option Text} {F F' : Text → Option Node} {u : Text} {res : Info × List Obj × List (Place Bytes)}
    (hx : extractAll x k ver F u = some res) (hu : res.1.uuid = u) (h : ∀ m ∈ names k u, F' m = F m) : extractAll x k ver F' u = some res := by
  have hx0 := hx
  unfold extractAll at hx ⊢
  rw [h u (self_name k u)]
  cases hF : F u with
  | none => rw [hF] at hx; cases hx
  | some nd =>
    cases nd with
    | dir f => rw [hF] at hx; cases hx
    | file b =>
      rw [hF] at hx
      simp only [Option.bind_eq_some_iff, Option.map_eq_some_iff] at hx ⊢
      obtain ⟨r, hr, p, hpo, q, hq, rfl⟩ := hx
      refine ⟨r, hr, p, ?_, q, hq, rfl⟩
      have e1 : r.1.uuid = u := by rw [extract_info hr hq]; exact hu
      rw [e1] at hpo ⊢
      rw [partsOut_local h]
      exact hpo

theorem innerAll_local {x : Ext} {k : Kind} {F F' : Text → Option Node} {v : Val} {res : Info × List (Place Bytes)} (hx : innerAll x k F v = some res)
    (hh : k.help = none) (hb : k.blobs = []) (hi : k.info = none) (h : ∀ m ∈ innerNames k res.1.uuid, F' m = F m) : innerAll x k F' v = some res := by
  unfold innerAll at hx ⊢
  simp only [Option.bind_eq_some_iff, Option.map_eq_some_iff] at hx ⊢
  obtain ⟨r, hr, p, hpo, q, hq, rfl⟩ := hx
  refine ⟨r, hr, p, ?_, q, hq, rfl⟩
  have e1 : r.1 = q.1 := extractVal_info hr hq
  rw [e1] at hpo ⊢
  rw [← hpo]
  unfold partsOut
  rw [hh, hb, hi, codesOut_local (fun c hc => h _ (List.mem_map.mpr ⟨c, hc, rfl⟩))]
  rfl

end V8.Store

namespace V8.Leaf
open V8.Brace V8.Enc V8.JsonText V8.Header V8.Nested V8.Object
open V8.Store (Node fileAt_local dot)

theorem partsOut_local {x : Ext} {t : Leaf} {F F' : Text → Option Node} {info : Info} {root : Val} (h : F' (dot info.uuid ['0']) = F (dot info.uuid ['0'])) :
    partsOut x t F' info root = partsOut x t F info root := by
  cases t with
  | picture => simp only [partsOut, pictureParts, fileAt_local h]
  | template => simp only [partsOut, templateParts, dataParts, fileAt_local h]
  | commonTemplate => simp only [partsOut, templateParts, dataParts, fileAt_local h]
  | reference => simp only [partsOut, referenceParts, h]

theorem leafOut_local {x : Ext} {ver : Text} {t : Leaf} {F F' : Text → Option Node} {u : Text} {res : Info × List (Store.Place Node)} (hx : leafOut x ver t F u = some res)
    (hu : res.1.uuid = u) (h : ∀ m ∈ leafNames u, F' m = F m) : leafOut x ver t F' u = some res := by
  obtain ⟨info, src⟩ := res
  obtain ⟨b, d', cv, hd, h', r, p, hF, hb, hc, hg, hdec, hs, hpo, rfl⟩ := leafOut_some hx
  simp only at hu
  have h0 : F' (dot info.uuid ['0']) = F (dot info.uuid ['0']) := by
    rw [hu]
    exact h _ List.mem_cons_self
  unfold leafOut
  rw [h u (List.mem_cons_of_mem _ List.mem_cons_self), hF]
  simp only [hb, Option.bind_some, hc, hg, hdec, hs, partsOut_local h0, hpo, Option.map_some]

end V8.Leaf

namespace V8.FormObj
open V8.Brace V8.Enc V8.JsonText V8.Header V8.Nested V8.Object
open V8.Store (Node fileAt_local dot)

theorem formOut_local {x : Ext} {g : Lim} {con : Option Text} {f : FCls} {F F' : Text → Option Node} {u : Text} {res : Info × List (Store.Place Node)}
    (hx : formOut x g con f F u = some res) (hu : res.1.uuid = u) (h : ∀ m ∈ formNames u, F' m = F m) : formOut x g con f F' u = some res := by
  obtain ⟨info, src⟩ := res
  obtain ⟨b, d, c, hd, h', r, ty, z, one, v, e, hF, hb, hc, hg, hdec, hs, hty, hz, ho, hv, he, rfl⟩ := formOut_some hx
  simp only at hu
  have h0 : F' (dot info.uuid ['0']) = F (dot info.uuid ['0']) := by
    rw [hu]
    exact h _ (List.mem_cons_of_mem _ List.mem_cons_self)
  have h1 : F' (dot info.uuid ['1']) = F (dot info.uuid ['1']) := by
    rw [hu]
    exact h _ (List.mem_cons_of_mem _ (List.mem_cons_of_mem _ List.mem_cons_self))
  unfold formOut
  rw [h u List.mem_cons_self, hF]
  simp only [hb, Option.bind_some, hc, hg, hdec, hs, hty, h0, fileAt_local h1, hz, ho, hv, he, Option.map_some]

end V8.FormObj

namespace V8.Tree
open V8.Brace V8.Enc V8.JsonText V8.Header V8.Nested V8.Object V8.Store
open V8.Leaf (Leaf leafOut leafNames leaf_back leafOut_local)
open V8.FormObj (FCls Lim formOut formNames form_back formOut_local)

theorem own_file {C : Text → Option Class} {ty u : Text} {c : Class} {root : Val} {k : Kind} (hc : C ty = some c) (ha : c.kindAt root = some k) {m : Text}
    (hm : m ∈ names k u) : m ∈ own C ty (.str u) := by
  rw [own_at hc ha]
  exact hm

/-- one object reads its own files -/
theorem handler_local {C : Text → Option Class} {g : Lim} {x : Ext} {y : Bld} {ver : Text} {F F' : Text → Option Node} {q ty : Text} {v : Val} {h : Handler}
    {r : Info × List Obj × List (Place Node)} {con : Option Text} (hC : ClassesOk C) (hp : y.p = x.p) (hf : Fit C g x y F con q ty v)
    (hk : handlers C g x y ver ty = some h) (ho : h.out con F v = some r) (hl : ∀ m ∈ own C ty v, F' m = F m) :
    h.out con F' v = some r ∧ h.con F' v = h.con F v := by
  unfold handlers at hk
  rw [Option.map_eq_some_iff] at hk
  obtain ⟨c, hc, rfl⟩ := hk
  rw [con_at]
  rcases class_cases hc hf with ⟨u, d, k, rfl, ha, hf⟩ | ⟨k, rfl⟩ | ⟨t, rfl⟩ | ⟨f, rfl⟩
  · have hl' : ∀ m ∈ names k u, F' m = F m := fun m hm => hl m (own_file hc ha hm)
    have hF' : F' u = some (.file (braceFile y.win d)) := by rw [hl' u (self_name k u)]; exact hf.file
    have hb := C59_brace_file_round_trip y.win d hf.ne hf.wf
    constructor
    · have h0 := ho
      rw [out_at hf.file hb ha, Option.map_eq_some_iff] at h0
      obtain ⟨res, h1, h2⟩ := h0
      rw [out_at hF' hb ha, extractAll_local h1 (file_found hf h1).1 hl', Option.map_some, h2]
    · unfold conOf
      cases c with
      | file k' =>
        simp only
        unfold conOut
        simp only [hF', hf.file]
      | pick n k' rest => rfl
      | inner k' => cases ha
      | leaf t => cases ha
      | form f => cases ha
  · unfold Fit at hf
    rw [hc] at hf
    obtain ⟨l, u, rfl, hu, _⟩ := hf
    refine ⟨?_, rfl⟩
    simp only [handlerOf, Option.map_eq_some_iff] at ho ⊢
    obtain ⟨res, h1, rfl⟩ := ho
    obtain ⟨hg, _, hh, hb, hi, _⟩ := hC.inner _ _ hc
    have hu' := (innerAll_some hg h1).2.1
    refine ⟨res, innerAll_local h1 hh hb hi (fun m hm => hl m ?_), rfl⟩
    unfold own
    rw [hc]
    simp only [hu']
    exact hm
  · unfold Fit at hf
    rw [hc] at hf
    obtain ⟨u, d, cl, rfl, hf⟩ := hf
    refine ⟨?_, rfl⟩
    obtain ⟨i, os, src⟩ := r
    obtain ⟨h1, h2⟩ := leaf_out ho
    simp only at h1 h2
    have := (leaf_back x { y with parent := q } ver t F u d cl _ _ hf hp h1).1
    have h3 := leafOut_local (F' := F') h1 this (fun m hm => hl m (by unfold own; rw [hc]; exact hm))
    show (leafOut x ver t F' u).map (fun (r : Info × List (Place Node)) => (r.1, ([] : List Obj), r.2)) = _
    rw [h3, Option.map_some, h2]
  · unfold Fit at hf
    rw [hc] at hf
    obtain ⟨u, d, cl, fv, ft, rfl, ha, hg, hf⟩ := hf
    refine ⟨?_, rfl⟩
    obtain ⟨i, os, src⟩ := r
    obtain ⟨h1, h2⟩ := form_out ho
    simp only at h1 h2
    have := (form_back x { y with parent := q } g con f F u d cl fv ft _ _ hf hp ha hg h1).1
    have h3 := formOut_local (F' := F') h1 this (fun m hm => hl m (by unfold own; rw [hc]; exact hm))
    show (formOut x g con f F' u).map (fun (r : Info × List (Place Node)) => (r.1, ([] : List Obj), r.2)) = _
    rw [h3, Option.map_some, h2]

theorem extractKids_local {f f' : Text → Val → Option (Info × Dir)} : ∀ {os : List Obj} {subs : List (Text × Text × Dir)}, extractKids f os = some subs →
    (∀ o ∈ os, ∀ r, f o.ty o.orig = some r → f' o.ty o.orig = some r) → extractKids f' os = some subs
  | [], _, h, _ => h
  | o :: r, subs, h, hf => by
    rw [extractKids] at h ⊢
    simp only [Option.bind_eq_some_iff, Option.map_eq_some_iff] at h ⊢
    obtain ⟨a, ha, b, hb, he⟩ := h
    exact ⟨a, hf o List.mem_cons_self a ha, b, extractKids_local hb (fun o ho => hf o (List.mem_cons_of_mem _ ho)), he⟩

/-- **C80, nested objects.**  The sources of an object with everything nested in it depend on nothing but the files of the object and of what is nested in it. -/
theorem C80_tree {C : Text → Option Class} {g : Lim} {x : Ext} {y : Bld} {ver : Text} {F F' : Text → Option Node} (hC : ClassesOk C) (hp : y.p = x.p) :
    ∀ (n : Nat) (con : Option Text) (q ty : Text) (v : Val) (res : Info × Dir), extractTree (handlers C g x y ver) F n con ty v = some res →
      Fit C g x y F con q ty v → (∀ con' ty' v', Inside C x.E F ty v con' ty' v' → ∃ q, Fit C g x y F con' q ty' v') →
      (∀ m ∈ own C ty v, F' m = F m) → (∀ con' ty' v', Inside C x.E F ty v con' ty' v' → ∀ m ∈ own C ty' v', F' m = F m) →
      extractTree (handlers C g x y ver) F' n con ty v = some res
  | 0, con, q, ty, v, res, h, _, _, _, _ => by rw [extractTree] at h; cases h
  | n + 1, con, q, ty, v, res, hx, hf, hin, hl, hlin => by
    rw [extractTree] at hx ⊢
    simp only [Option.bind_eq_some_iff] at hx ⊢
    obtain ⟨h, hK, r, hr, subs, hsubs, hx⟩ := hx
    obtain ⟨h1, h2⟩ := handler_local hC hp hf hK hr hl
    refine ⟨h, hK, r, h1, subs, ?_, hx⟩
    rw [h2]
    refine extractKids_local hsubs (fun o ho r' hr' => ?_)
    have hi := inside_of_kid hf hK hr ho
    obtain ⟨q', hq'⟩ := hin _ _ _ hi
    exact C80_tree hC hp n _ q' _ _ _ hr' hq' (fun con' ty' v' h' => hin _ _ _ (.deeper hi h')) (hlin _ _ _ hi) (fun con' ty' v' h' => hlin _ _ _ (.deeper hi h'))

end V8.Tree
