import Verif.Props.FoldersRoot
/-
The exceptions of C82: when a folder that comes or goes changes no list.
-/
namespace V8.Folders
open V8.Brace V8.Enc V8.JsonText V8.Header V8.Store V8.Tree V8.Product
open V8.Nested hiding Handler Env
open V8.Object hiding Cls
open V8.Misc (Cls)
open V8.Root (listPaths putLists listsIn rootIn frontIn versionsIn headerIn optionsIn conIn Apart slotsAt)

/-- a folder more, and the lists are the same with it and without it -/
theorem product_unlisted (e : V8.Root.Env) (K : Text → Text → Text → Option Handler) (ord : Text → List Entry → List Entry) (shuf : List Text → List Text) (file : Text) (src : List (Place Node))
    (l r : List (Text × Text × Dir)) (xty xnm : Text) (xd : Dir) (j : JT) (c : Cls) (ver : Text) (o : Options) (u fu : Text) (h1 : Val) (y : Entry) (fX : List (Text × Node))
    (hs : SourcesOf e file src j c ver o u fu h1) (hord : ∀ id l, (ord id l).Perm l) (hshuf : ∀ l, (shuf l).Perm l)
    (hx : buildDir (K ver o.productVersion) ord (conIn c j) (V8.Root.kindOf c).name xty xnm xd = some ([y], fX))
    (hsame : ∀ es kf, buildSubs (K ver o.productVersion) ord (conIn c j) (V8.Root.kindOf c).name (.ofList (l ++ r)) = some (es, kf) →
      ∀ a b, a.Perm es → b.Perm (y :: es) → listsIn e c b h1 = listsIn e c a h1) :
    (∃ files files' d, V8.Root.buildProduct e K ord shuf file (.mk src (.ofList (l ++ r))) = some (c, files) ∧
      V8.Root.buildProduct e K ord shuf file (.mk src (.ofList (l ++ (xty, xnm, xd) :: r))) = some (c, files') ∧ GrownBy c e.y.win e.rnd fX fu d d files files' ∧
      ∀ es kf, buildSubs (K ver o.productVersion) ord (conIn c j) (V8.Root.kindOf c).name (.ofList (l ++ r)) = some (es, kf) → listsIn e c (ord (V8.Root.kindOf c).name es) h1 = some (rootVal d)) ∨
    (V8.Root.buildProduct e K ord shuf file (.mk src (.ofList (l ++ r))) = none ∧ V8.Root.buildProduct e K ord shuf file (.mk src (.ofList (l ++ (xty, xnm, xd) :: r))) = none) := by
  rw [build_read hs, build_read hs]
  have hsub := subs_append (K ver o.productVersion) ord (conIn c j) (V8.Root.kindOf c).name l r
  have hsub' : buildSubs (K ver o.productVersion) ord (conIn c j) (V8.Root.kindOf c).name (.ofList (l ++ (xty, xnm, xd) :: r)) =
      (buildSubs (K ver o.productVersion) ord (conIn c j) (V8.Root.kindOf c).name (.ofList l)).bind (fun a =>
        (buildSubs (K ver o.productVersion) ord (conIn c j) (V8.Root.kindOf c).name (.ofList r)).map (fun b => (a.1 ++ y :: b.1, a.2 ++ (fX ++ b.2)))) := by
    rw [subs_append, Subs.ofList, buildSubs, hx, Option.bind_some]
    simp only [Option.map_map]
    rfl
  cases hL : buildSubs (K ver o.productVersion) ord (conIn c j) (V8.Root.kindOf c).name (.ofList l) with
  | none =>
    rw [hL] at hsub hsub'
    refine .inr ⟨?_, ?_⟩
    · rw [hsub]; rfl
    · rw [hsub']; rfl
  | some a =>
    cases hR : buildSubs (K ver o.productVersion) ord (conIn c j) (V8.Root.kindOf c).name (.ofList r) with
    | none =>
      rw [hL, hR] at hsub hsub'
      refine .inr ⟨?_, ?_⟩
      · rw [hsub]; rfl
      · rw [hsub']; rfl
    | some b =>
      rw [hL, hR] at hsub hsub'
      simp only [Option.bind_some, Option.map_some] at hsub hsub'
      have hsame := hsame _ _ hsub _ _ (hord (V8.Root.kindOf c).name (a.1 ++ b.1)) ((hord (V8.Root.kindOf c).name (a.1 ++ y :: b.1)).trans List.perm_middle)
      rw [hsub, hsub']
      simp only [Option.bind_some]
      obtain ⟨h, hh, hh1⟩ := hs.header
      have bothNone : ∀ {es : List Entry} {made : List Text}, (∀ w, listsIn e c es h1 = some w → rootOf w = none) →
          rootIn e c ver file made es (fileIn (folder src)) j = none := by
        intro es made hw
        unfold rootIn
        simp only [hs.uuid, hs.fileUuid, hh, hs.opts, hh1, Option.bind_some]
        cases V8.Root.toolOf j with
        | none => rfl
        | some v8 =>
          simp only [Option.bind_some]
          split
          · rfl
          · cases hli : listsIn e c es h1 with
            | none => rfl
            | some w => simp only [Option.bind_some, hw w hli, Option.bind_none]
      cases hw : listsIn e c (ord (V8.Root.kindOf c).name (a.1 ++ b.1)) h1 with
      | none =>
        refine .inr ⟨?_, ?_⟩
        · rw [bothNone (fun w h => by rw [hw] at h; cases h)]; rfl
        · rw [bothNone (fun w h => by rw [hsame, hw] at h; cases h)]; rfl
      | some w =>
        cases hr : rootOf w with
        | none =>
          refine .inr ⟨?_, ?_⟩
          · rw [bothNone (fun w' h => by rw [hw] at h; cases h; exact hr)]; rfl
          · rw [bothNone (fun w' h => by rw [hsame, hw] at h; cases h; exact hr)]; rfl
        | some d =>
          obtain rfl := V8.Root.rootVal_rootOf hr
          rcases own_files (ver := ver) hs.uuid hs.fileUuid hh hs.opts hh1 with ⟨A, B, hown⟩ | hown
          case inr =>
            refine .inr ⟨?_, ?_⟩
            · rw [hown]; rfl
            · rw [hown]; rfl
          obtain ⟨n, o1, o2⟩ := hown (shuf ((a.2 ++ b.2).map (·.1))) _ _ d hw hr
          obtain ⟨n', o3, o4⟩ := hown (shuf ((a.2 ++ (fX ++ b.2)).map (·.1))) _ _ d (hsame.trans hw) hr
          refine .inl ⟨_, _, d, by rw [o1]; rfl, by rw [o3]; rfl, ⟨a.2, b.2 ++ A, B, n, n', ?_, ?_, ?_⟩, fun es kf h => (by cases h; exact hw)⟩
          · simp only [List.append_assoc]
          · simp only [List.append_assoc]
          · intro hc
            have g1 := (o2 hc).trans ((hshuf _).append_right _)
            have g2 := (o4 hc).trans ((hshuf _).append_right _)
            rw [← List.map_append] at g1 g2
            exact ⟨g1, g2⟩

/-- **C82, without auto_include.**  The lists come from the recorded header: the product gets the files of an added folder, but its header is the same bytes and does not list the object; if the
folder is deleted, the files are gone and the header still lists the object. -/
theorem C82_without_auto_neg (e : V8.Root.Env) (K : Text → Text → Text → Option Handler) (ord : Text → List Entry → List Entry) (shuf : List Text → List Text) (file : Text) (src : List (Place Node))
    (l r : List (Text × Text × Dir)) (xty xnm : Text) (xd : Dir) (j : JT) (c : Cls) (ver : Text) (o : Options) (u fu : Text) (h1 : Val) (y : Entry) (fX : List (Text × Node))
    (hs : SourcesOf e file src j c ver o u fu h1) (hauto : e.y.auto = false) (hord : ∀ id l, (ord id l).Perm l) (hshuf : ∀ l, (shuf l).Perm l)
    (hx : buildDir (K ver o.productVersion) ord (conIn c j) (V8.Root.kindOf c).name xty xnm xd = some ([y], fX)) :
    (∃ files files' d, V8.Root.buildProduct e K ord shuf file (.mk src (.ofList (l ++ r))) = some (c, files) ∧
      V8.Root.buildProduct e K ord shuf file (.mk src (.ofList (l ++ (xty, xnm, xd) :: r))) = some (c, files') ∧ GrownBy c e.y.win e.rnd fX fu d d files files' ∧ h1 = rootVal d) ∨
    (V8.Root.buildProduct e K ord shuf file (.mk src (.ofList (l ++ r))) = none ∧ V8.Root.buildProduct e K ord shuf file (.mk src (.ofList (l ++ (xty, xnm, xd) :: r))) = none) := by
  have hl : ∀ es, listsIn e c es h1 = some h1 := fun es => by unfold listsIn; rw [if_pos (.inr hauto)]
  rcases product_unlisted e K ord shuf file src l r xty xnm xd j c ver o u fu h1 y fX hs hord hshuf hx (fun _ _ _ a b _ _ => by rw [hl, hl]) with ⟨files, files', d, k1, k2, k3, k4⟩ | h
  · refine .inl ⟨files, files', d, k1, k2, k3, ?_⟩
    cases hb : buildSubs (K ver o.productVersion) ord (conIn c j) (V8.Root.kindOf c).name (.ofList (l ++ r)) with
    | none =>
      rw [build_read hs, hb] at k1
      cases k1
    | some q =>
      have := k4 q.1 q.2 hb
      rw [hl] at this
      exact Option.some.inj this
  · exact .inr h

/-- **C82, the first object of a type.**  With auto_include, where extraction found no object of a type it left the list of the type as the identifier of the type and the number 0.  A folder of an object
of this type gets into the product, but no list of the header names the object. -/
theorem C82_first_of_type_neg (e : V8.Root.Env) (K : Text → Text → Text → Option Handler) (ord : Text → List Entry → List Entry) (shuf : List Text → List Text) (file : Text) (src : List (Place Node))
    (l r : List (Text × Text × Dir)) (xty xnm : Text) (xd : Dir) (j : JT) (c : Cls) (ver : Text) (o : Options) (u fu : Text) (h1 : Val) (y : Entry) (fX : List (Text × Node)) (ps : List (List Nat))
    (hs : SourcesOf e file src j c ver o u fu h1) (hord : ∀ id l, (ord id l).Perm l) (hshuf : ∀ l, (shuf l).Perm l)
    (hx : buildDir (K ver o.productVersion) ord (conIn c j) (V8.Root.kindOf c).name xty xnm xd = some ([y], fX))
    (hes : ∀ es kf, buildSubs (K ver o.productVersion) ord (conIn c j) (V8.Root.kindOf c).name (.ofList (l ++ r)) = some (es, kf) → es ≠ [] ∧ ((y :: es).map (fun e => (e.ty, e.nm))).Nodup)
    (hps : listPaths e.groups c h1 = some ps) (hap : ps.Pairwise Apart)
    (hl : ∀ p ∈ ps, ∀ s ∈ slotsAt h1 p, (∃ ty, s = .str ty ∧ ty ≠ y.ty) ∨ ∃ t, s = .list [.str t, .str ['0']]) :
    (∃ files files' d, V8.Root.buildProduct e K ord shuf file (.mk src (.ofList (l ++ r))) = some (c, files) ∧
      V8.Root.buildProduct e K ord shuf file (.mk src (.ofList (l ++ (xty, xnm, xd) :: r))) = some (c, files') ∧ GrownBy c e.y.win e.rnd fX fu d d files files') ∨
    (V8.Root.buildProduct e K ord shuf file (.mk src (.ofList (l ++ r))) = none ∧ V8.Root.buildProduct e K ord shuf file (.mk src (.ofList (l ++ (xty, xnm, xd) :: r))) = none) := by
  have hzero : ∀ (es : List Entry) (t : Text), fillSlot e.y.E es (.list [.str t, .str ['0']]) = some (.list [.str t, .str ['0']]) := by
    intro es t
    have h0 : V8.Dec.parseInt ['0'] = some 0 := by decide
    rw [fillSlot]
    simp only [h0]
    cases typeOf e.y.E (.str t) with
    | none => rfl
    | some ty =>
      simp only
      split <;> rfl
  rcases product_unlisted e K ord shuf file src l r xty xnm xd j c ver o u fu h1 y fX hs hord hshuf hx (by
    intro es kf he a b ha hb
    obtain ⟨hne, hnd⟩ := hes es kf he
    have ha0 : a ≠ [] := fun h => hne (by rw [h] at ha; exact ha.nil_eq.symm)
    have hb0 : b ≠ [] := fun h => by rw [h] at hb; exact absurd hb.nil_eq (by simp)
    have hba : b.Perm (y :: a) := hb.trans (ha.symm.cons y)
    have hbn : (b.map (fun e => (e.ty, e.nm))).Nodup := (hb.map _).nodup_iff.mpr hnd
    unfold listsIn
    by_cases hau : e.y.auto = false
    · rw [if_pos (.inr hau), if_pos (.inr hau)]
    · rw [if_neg (by simp [hb0, hau]), if_neg (by simp [ha0, hau]), hps, Option.bind_some, Option.bind_some]
      refine put_alike ps h1 hap ?_
      intro p hp s hs'
      rcases hl p hp s hs' with ⟨ty, rfl, hty⟩ | ⟨t, rfl⟩
      · exact slot_other hba hbn hty
      · rw [hzero, hzero]) with ⟨files, files', d, k1, k2, k3, _⟩ | h
  · exact .inl ⟨files, files', d, k1, k2, k3⟩
  · exact .inr h

/-! ### inside an object, without auto_include -/

theorem items_missing {es : List Entry} {u : Text} (h : ∀ z ∈ es, V8.Encode.lower z.uu ≠ V8.Encode.lower u) : ∀ (n i : Nat) (items : List Val), i < n → items[i]? = some (.str u) → fillItems es n items = none
  | 0, i, _, hi, _ => absurd hi (by omega)
  | n + 1, i, [], _, hg => by simp at hg
  | n + 1, 0, a :: r, _, hg => by
    have ha : a = .str u := by simpa using hg
    subst ha
    have : lookup es u = none := by
      unfold lookup
      rw [List.find?_eq_none]
      intro z hz
      have := h z (List.mem_reverse.mp hz)
      simpa using this
    rw [fillItems, this]
  | n + 1, i + 1, a :: r, hi, hg => by
    have ih := items_missing h n i r (by omega) (by simpa using hg)
    cases a with
    | none => rfl
    | list _ => rfl
    | str v =>
      rw [fillItems, ih]
      cases lookup es v <;> rfl

theorem slots_missing {E : V8.Nested.Env} {es : List Entry} {s : Val} (h : fillSlot E es s = none) : ∀ (n j : Nat) (slots : List Val), j < n → slots[j]? = some s → fillSlots E es n slots = none
  | 0, j, _, hj, _ => absurd hj (by omega)
  | n + 1, j, [], _, hg => by simp at hg
  | n + 1, 0, a :: r, _, hg => by
    have ha : a = s := by simpa using hg
    rw [fillSlots, ha, h]
    rfl
  | n + 1, j + 1, a :: r, hj, hg => by
    rw [fillSlots, slots_missing h n j r (by omega) (by simpa using hg)]
    cases fillSlot E es a <;> rfl

/-- **C82, an object inside an object is removed, without auto_include.**  A list of an object names the identifiers of its nested objects.  If the folder of one of them is gone, and another object of
the type is there, the build of the object fails. -/
theorem C82_nested_removed_neg {E : V8.Nested.Env} {es : List Entry} {a b t : Val} {m n ty u : Text} {items slots : List Val} {cm c : Int} {i j : Nat} (auto : Bool)
    (hm : V8.Dec.parseInt m = some cm) (hj : j < cm.toNat) (hslot : slots[j]? = some (.list (t :: .str n :: items))) (hn : V8.Dec.parseInt n = some c) (hi : i < c.toNat)
    (hit : items[i]? = some (.str u)) (hty : typeOf E t = some ty) (hsome : ∃ z ∈ es, z.ty = ty) (hgone : ∀ z ∈ es, z.ty = ty → V8.Encode.lower z.uu ≠ V8.Encode.lower u) :
    buildInclude E false auto es (a :: b :: .str m :: slots) = none := by
  have hof : ofType ty es ≠ [] := by
    obtain ⟨z, hz, hzt⟩ := hsome
    intro h
    have : z ∈ ofType ty es := List.mem_filter.mpr ⟨hz, by simpa using hzt⟩
    rw [h] at this
    cases this
  have hes : es ≠ [] := fun h => by rw [h] at hsome; obtain ⟨z, hz, _⟩ := hsome; cases hz
  have hfill : fillSlot E es (.list (t :: .str n :: items)) = none := by
    rw [fillSlot]
    simp only [hn, hty]
    rw [if_neg hof, items_missing (fun z hz => ?_) c.toNat i items hi hit]
    · rfl
    · obtain ⟨h1, h2⟩ := List.mem_filter.mp hz
      exact hgone z h1 (by simpa using h2)
  unfold buildInclude
  rw [if_neg (by simp [hes]), fillInclude]
  simp only [hm]
  rw [slots_missing hfill cm.toNat j slots hj hslot]
  rfl

/-- **C82, the last object of a type inside an object is removed, without auto_include.**  The list stays as it is and names an object that is not there. -/
theorem C82_nested_last_removed_neg {E : V8.Nested.Env} {es : List Entry} {t : Val} {n ty : Text} {items : List Val} {c : Int} (hn : V8.Dec.parseInt n = some c) (hty : typeOf E t = some ty)
    (hgone : ∀ z ∈ es, z.ty ≠ ty) : fillSlot E es (.list (t :: .str n :: items)) = some (.list (t :: .str n :: items)) := by
  have hof : ofType ty es = [] := by
    unfold ofType
    rw [List.filter_eq_nil_iff]
    intro z hz
    have := hgone z hz
    simpa using this
  rw [fillSlot]
  simp only [hn, hty, if_pos hof]

theorem lookup_more {l r : List Entry} {x : Entry} {u : Text} (h : V8.Encode.lower x.uu ≠ V8.Encode.lower u) : lookup (l ++ x :: r) u = lookup (l ++ r) u := by
  unfold lookup
  have : decide (V8.Encode.lower x.uu = V8.Encode.lower u) = false := by simpa using h
  simp only [List.reverse_append, List.reverse_cons, List.append_assoc, List.find?_append, List.find?_cons, List.find?_nil, this, List.singleton_append]

theorem items_more {l r : List Entry} {x : Entry} : ∀ (n : Nat) (items : List Val), (∀ u, Val.str u ∈ items → V8.Encode.lower x.uu ≠ V8.Encode.lower u) →
    fillItems (l ++ x :: r) n items = fillItems (l ++ r) n items
  | 0, _, _ => rfl
  | _ + 1, [], _ => rfl
  | n + 1, .none :: _, _ => rfl
  | n + 1, .list _ :: _, _ => rfl
  | n + 1, .str u :: rest, h => by
    rw [fillItems, fillItems, lookup_more (h u List.mem_cons_self), items_more n rest (fun u hu => h u (List.mem_cons_of_mem _ hu))]

/-- **C82, an object inside an object is added, without auto_include.**  Where an object of the type is there already, the lists of the object come out the same with the new folder and without it: the
object is built, and no list names it. -/
theorem C82_nested_added_neg {E : V8.Nested.Env} {l r : List Entry} {x : Entry} {t : Val} {n : Text} {items : List Val} (hsome : ∃ z ∈ l ++ r, z.ty = x.ty)
    (hnew : ∀ u, Val.str u ∈ items → V8.Encode.lower x.uu ≠ V8.Encode.lower u) :
    fillSlot E (l ++ x :: r) (.list (t :: .str n :: items)) = fillSlot E (l ++ r) (.list (t :: .str n :: items)) := by
  rw [fillSlot, fillSlot]
  cases V8.Dec.parseInt n with
  | none => rfl
  | some c =>
    simp only
    cases hty : typeOf E t with
    | none => rfl
    | some ty =>
      simp only
      by_cases hx : x.ty = ty
      · obtain ⟨z, hz, hzt⟩ := hsome
        have e1 : ofType ty (l ++ x :: r) = ofType ty l ++ x :: ofType ty r := by
          unfold ofType
          rw [List.filter_append, List.filter_cons_of_pos (by simpa using hx)]
        have e2 : ofType ty (l ++ r) = ofType ty l ++ ofType ty r := by
          unfold ofType
          rw [List.filter_append]
        have h2 : ofType ty l ++ ofType ty r ≠ [] := by
          rw [← e2]
          intro h
          have : z ∈ ofType ty (l ++ r) := List.mem_filter.mpr ⟨hz, by simpa using hzt.trans hx⟩
          rw [h] at this
          cases this
        rw [e1, e2, if_neg (by simp), if_neg h2, items_more _ _ hnew]
      · have : ofType ty (l ++ x :: r) = ofType ty (l ++ r) := by
          unfold ofType
          rw [List.filter_append, List.filter_append, List.filter_cons_of_neg (by simpa using hx)]
        rw [this]

/-- the tables of an external data source: `b` and `c` are listed, the folder of `c` is deleted -/
example : buildInclude (envOf metaTypes classOf) false false [⟨"ExternalDataSourceTable".toList, ['b'], ['B'], .str ['b']⟩]
    [.str ['0'], .str ['0'], .str ['1'], .list [.str "e3403acd-1c95-421b-87e4-4dfa29d38b52".toList, .str ['2'], .str ['b'], .str ['c']]] = none :=
  C82_nested_removed_neg (i := 1) (j := 0) (ty := "ExternalDataSourceTable".toList) (cm := 1) (c := 2) false (by decide) (by decide) rfl (by decide) (by decide) rfl (by decide +kernel)
    ⟨_, List.mem_cons_self, rfl⟩ (fun z hz _ => by rw [List.mem_singleton.mp hz]; decide +kernel)

end V8.Folders
