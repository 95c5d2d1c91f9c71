import Verif.Props.Root
import Verif.Props.TreeAgain
/-
C80: the sources of a product that was built are the sources it was built from.
-/
namespace V8.Root
open V8.Brace V8.Enc V8.JsonText V8.Header V8.Store V8.Tree V8.Embed
open V8.Nested hiding Env Handler
open V8.Object hiding Cls
open V8.Product (getAt setAt getAt_append setAt_getAt Options)
open V8.Misc (Cls)

/-! ### the statement -/

/-- a container `F'` that a build could have made from the container `F`: every file of the product and of what is nested in it is the same (C62, C67); `versions` of a
configuration is any brace file; `configinfo` of an extension has the version row and the copyinfo of the old one and anything else -/
structure Rebuilt (C : Text → Option Class) (e : Env) (c : Cls) (F F' : Text → Option Node) (fu u : Text) (dr dh : List (List Val)) : Prop where
  same : ∀ m, m ∈ ownNames c u fu ∨ NestedNames C e c F dh m → F' m = F m
  noInfo : c ≠ .extension → F' "configinfo".toList = none
  noRoot : c = .extension → F' "root".toList = none
  versions : c = .config → Stored e.y.win (F' "versions".toList)
  configinfo : c = .extension → ∃ v row t, getAt (rootVal dr) [0, 1] = some v ∧ getAt (rootVal dr) [1] = some (.list row) ∧
    F' "configinfo".toList = some (.file (braceFile e.y.win [[.str ['0'], v], row, t])) ∧ WFFile [[.str ['0'], v], row, t]

/-- the entry of the description that is made anew by every build -/
def freshKey : Cls → Option Text
  | .config => some "versions".toList
  | .extension => some "configinfo".toList
  | .processor => none

/-- two JSON objects have the same keys in the same order, and the same values but for that of `key` -/
def ButFor (key : Option Text) (o o' : List (Text × JT)) : Prop := match key with
  | none => o' = o
  | some k => ∃ pre post a b, o = pre ++ (k, a) :: post ∧ o' = pre ++ (k, b) :: post

/-- two source folders of a product are the same - files and folders of nested objects, byte by byte - but for one entry of the description -/
def SameSources (c : Cls) (win : Bool) (dir dir' : Dir) : Prop :=
  ∃ src o o' subs, dir = .mk (nodes (src ++ [(objName (kindOf c).name, some (fileOf win (.obj o)))])) subs ∧
    dir' = .mk (nodes (src ++ [(objName (kindOf c).name, some (fileOf win (.obj o')))])) subs ∧ ButFor (freshKey c) o o'

/-! ### pieces -/

theorem need_local {F F' : Text → Option Node} {n : Text} (h : F' n = F n) : need F' n = need F n := by
  unfold need
  rw [h]

theorem imagesOut_local {F F' : Text → Option Node} {u : Text} {o : Option (Text × Text)} (h : ∀ p, o = some p → F' (dot u p.2) = F (dot u p.2)) :
    imagesOut F' u o = imagesOut F u o := by
  cases o with
  | none => rfl
  | some p =>
    obtain ⟨a, b⟩ := p
    rw [imagesOut, imagesOut, fileAt_local (h _ rfl)]

theorem filesOut_local {win : Bool} {k : Text} {F F' : Text → Option Node} {u : Text} : ∀ {l : List Text}, (∀ n ∈ l, F' (dot u n) = F (dot u n)) →
    filesOut win k F' u l = filesOut win k F u l
  | [], _ => rfl
  | n :: r, h => by
    rw [filesOut, filesOut, filesOut_local (l := r) (fun c hc => h c (List.mem_cons_of_mem _ hc)), fileAt_local (h n List.mem_cons_self)]

theorem infosOut_local {F F' : Text → Option Node} {u : Text} : ∀ {l : List Text}, (∀ n ∈ l, F' (dot u n) = F (dot u n)) → infosOut F' u l = infosOut F u l
  | [], _ => rfl
  | n :: r, h => by
    rw [infosOut, infosOut, infosOut_local (l := r) (fun c hc => h c (List.mem_cons_of_mem _ hc)), h n List.mem_cons_self]

theorem partsOut_local {win : Bool} {c : Cls} {dir : Bool} {F F' : Text → Option Node} {u fu : Text} (h : ∀ m ∈ ownNames c u fu, F' m = F m) :
    partsOut win (kindOf c) dir F' u = partsOut win (kindOf c) dir F u := by
  have hm : ∀ m, m ∈ partNames (kindOf c) u ∨ m ∈ (kindOf c).infos.map (dot u) → F' m = F m := by
    intro m hm
    apply h
    unfold ownNames
    simp only [List.mem_append]
    rcases hm with h | h
    · exact .inl (.inr h)
    · exact .inr h
  have hq : ∀ m, (m ∈ (kindOf c).help.toList.map (dot u) ∨ m ∈ (kindOf c).image.toList.map (fun p => dot u p.2) ∨ m ∈ (kindOf c).files.map (dot u) ∨
      m ∈ (kindOf c).codes.map (fun c => dot u c.2)) → F' m = F m := by
    intro m hq
    apply hm
    left
    unfold partNames
    simp only [List.mem_append]
    rcases hq with h | h | h | h
    · exact .inl (.inl (.inl h))
    · exact .inl (.inl (.inr h))
    · exact .inl (.inr h)
    · exact .inr h
  unfold partsOut
  rw [helpOut_local (fun s hs => hq _ (.inl (by rw [hs]; exact List.mem_map.mpr ⟨s, List.mem_cons_self, rfl⟩))),
    imagesOut_local (fun s hs => hq _ (.inr (.inl (by rw [hs]; exact List.mem_map.mpr ⟨s, List.mem_cons_self, rfl⟩)))),
    filesOut_local (fun c hc => hq _ (.inr (.inr (.inl (List.mem_map.mpr ⟨c, hc, rfl⟩))))),
    codesOut_local (fun c hc => hq _ (.inr (.inr (.inr (List.mem_map.mpr ⟨c, hc, rfl⟩))))),
    infosOut_local (fun c hc => hm _ (.inr (List.mem_map.mpr ⟨c, hc, rfl⟩)))]

theorem at_zero_one (v : Val) : (V8.Misc.at' 0 v).bind (V8.Misc.at' 1) = getAt v [0, 1] := by
  cases v with
  | none => rfl
  | str s => rfl
  | list l =>
    rw [show getAt (.list l) [0, 1] = (l[0]?).bind (fun w => getAt w [1]) by simp only [getAt]; cases l[0]? <;> rfl]
    show (l[0]?).bind _ = _
    cases l[0]? with
    | none => rfl
    | some w =>
      cases w with
      | none => rfl
      | str s => rfl
      | list m =>
        simp only [Option.bind_some, getAt]
        show m[1]? = _
        cases m[1]? <;> rfl

theorem written_cons_some {α : Type} (k : Text) (a : α) (l : List (Place α)) : written ((k, some a) :: l) = (k, a) :: written l := by
  unfold written
  rfl

theorem butFor_mid {k : Text} (A B : List (Place JT)) (a b : JT) :
    ButFor (some k) (written (A ++ (k, some a) :: B)) (written (A ++ (k, some b) :: B)) :=
  ⟨written A, written B, a, b, by rw [written_append, written_cons_some], by rw [written_append, written_cons_some]⟩

theorem own_head (c : Cls) (u fu : Text) : fu ∈ ownNames c u fu := by
  unfold ownNames frontNames
  cases c <;> simp

theorem own_root (c : Cls) (u fu : Text) (h : c ≠ .extension) : rootName c ∈ ownNames c u fu := by
  unfold ownNames frontNames rootName
  cases c with
  | config => exact List.mem_append_left _ (List.mem_append_left _ List.mem_cons_self)
  | processor => exact List.mem_append_left _ (List.mem_append_left _ List.mem_cons_self)
  | extension => exact absurd rfl h

/-- the new container has the file that names the product, with the same header -/
theorem again_root {C : Text → Option Class} {e : Env} {c : Cls} {ver file fu u : Text} {F F' : Text → Option Node} {dr dh : List (List Val)}
    (hok : ProductOk e c ver F file fu u dr dh) (hb : Rebuilt C e c F F' fu u dr dh) :
    ∃ root, need F' (rootName c) = some root ∧ getAt root (filePath c) = some (.str fu) ∧ getAt root [0, 1] = getAt (rootVal dr) [0, 1] ∧
      getAt root [1] = getAt (rootVal dr) [1] ∧ (c ≠ .extension → root = rootVal dr) := by
  have hroot := need_file hok.root hok.rootNe hok.rootWf
  cases c with
  | config => exact ⟨rootVal dr, (need_local (hb.same _ (.inl (own_root _ u fu (fun h => by cases h))))).trans hroot, hok.fileAt, rfl, rfl, fun _ => rfl⟩
  | processor => exact ⟨rootVal dr, (need_local (hb.same _ (.inl (own_root _ u fu (fun h => by cases h))))).trans hroot, hok.fileAt, rfl, rfl, fun _ => rfl⟩
  | extension =>
    obtain ⟨v, row, t, h1, h2, h3, h4⟩ := hb.configinfo rfl
    have hf := hok.fileAt
    rw [show filePath .extension = [1] ++ [1] from rfl, getAt_append, h2, Option.bind_some] at hf
    refine ⟨_, need_file h3 (fun h => by cases h) h4, ?_, ?_, ?_, fun h => absurd rfl h⟩
    · rw [show filePath .extension = [1] ++ [1] from rfl, getAt_append]
      exact hf
    · rw [h1]; rfl
    · rw [h2]; rfl

/-- the new container is a product of the same class and version -/
theorem again_detect {C : Text → Option Class} {e : Env} {c : Cls} {ver file fu u : Text} {F F' : Text → Option Node} {dr dh : List (List Val)}
    (hok : ProductOk e c ver F file fu u dr dh) (hT : ∀ u, e.types u ≠ some "ConfigurationExtension".toList) (hd : detect e F = some (c, ver))
    (hb : Rebuilt C e c F F' fu u dr dh) : detect e F' = some (c, ver) := by
  obtain ⟨d1, d2⟩ := detected hok hd
  obtain ⟨root, r1, r2, r3, _, r5⟩ := again_root hok hb
  by_cases hc : c = .extension
  · subst hc
    obtain ⟨r, v, h, hh⟩ := d2 rfl
    obtain ⟨v', row, t, _, _, h3, _⟩ := hb.configinfo rfl
    have hx := handler_ext hT hh Val.none Val.none
    unfold detect
    simp only [hb.noRoot rfl, Option.bind_some, h3]
    rw [show need F' "configinfo".toList = some root from r1, Option.map_some, Option.bind_some, ← hx]
    unfold V8.Misc.handler V8.Misc.byConfiginfo
    simp only [Option.bind_some, at_zero_one, r3]
  · have hroot : rootName c = "root".toList := by cases c <;> first | rfl | exact absurd rfl hc
    have hpath : filePath c = [0, 1] := by cases c <;> first | rfl | exact absurd rfl hc
    have hown : "root".toList ∈ ownNames c u fu ∧ "version".toList ∈ ownNames c u fu := by
      unfold ownNames frontNames
      cases c with
      | config => simp
      | processor => simp
      | extension => exact absurd rfl hc
    obtain ⟨v, ci, hv, hh⟩ := d1 hc
    obtain ⟨_, hh'⟩ := handler_plain hc hh none
    have hF := hok.root
    rw [hroot] at hF
    have hF' : F' "root".toList = some (.file (braceFile e.y.win dr)) := by rw [hb.same _ (.inl hown.1)]; exact hF
    have hat := hok.fileAt
    rw [hpath] at hat
    unfold detect
    simp only [hF', need_local (hb.same _ (.inl hown.2)), hv, Option.bind_some, need_file hF' hok.rootNe hok.rootWf, hat, strOf, need_local (hb.same _ (.inl (own_head c u fu))),
      need_file hok.head hok.headNe hok.headWf, Option.map_some, hb.noInfo hc]
    rw [show Embed.truthy (rootVal dr) = true from truthy_root dr hok.rootNe]
    exact hh'

/-- what stands beside the header is the same, but for the entry that is made anew -/
theorem again_beside {C : Text → Option Class} {e : Env} {c : Cls} {ver file fu u : Text} {F F' : Text → Option Node} {dr dh : List (List Val)} {root h : Val}
    {b : List (Place JT) × List (Place JT) × List (Place Bytes)} (hok : ProductOk e c ver F file fu u dr dh) (hb : Rebuilt C e c F F' fu u dr dh)
    (hroot : need F' (rootName c) = some root) (h01 : getAt root [0, 1] = getAt (rootVal dr) [0, 1]) (h1 : getAt root [1] = getAt (rootVal dr) [1])
    (hsame : c ≠ .extension → root = rootVal dr) (hx : besideOut e c ver F (rootVal dr) fu u h = some b) :
    ∃ b', besideOut e c ver F' root fu u h = some b' ∧ b'.2.2 = b.2.2 ∧
      ∀ info t, ButFor (freshKey c) (written (description c ver b.1 b.2.1 info t)) (written (description c ver b'.1 b'.2.1 info t)) := by
  obtain ⟨front, other, compat, vb, parts, k1, k2, k3, k4, k5, rfl⟩ := besideOut_some hx
  have hparts : partsOut e.x.win (kindOf c) (directives c ver) F' u = some parts := by
    rw [partsOut_local (fun m hm => hb.same m (.inl hm))]
    exact k5
  have hown : ∀ m ∈ frontNames u fu c, F' m = F m := fun m hm => hb.same m (.inl (by unfold ownNames; exact List.mem_append_left _ (List.mem_append_left _ hm)))
  have key : ∀ front' other', frontOut c e.tool fu root = some front' → otherOut c e.tool F' u = some other' →
      besideOut e c ver F' root fu u h = some (front', other' ++ compat ++ parts.1, parts.2 ++ vb) := by
    intro front' other' a b
    unfold besideOut
    simp only [a, b, k3, k4, hparts, Option.bind_some, Option.map_some]
  cases c with
  | config =>
    rw [hsame (fun h => by cases h)] at key ⊢
    simp only [otherOut, Option.bind_eq_some_iff, Option.map_eq_some_iff] at k2
    obtain ⟨v, hv, vs, hvs, rfl⟩ := k2
    obtain ⟨d, hd, hne, hwf⟩ := hb.versions rfl
    have ho : otherOut .config e.tool F' u = some [("version".toList, some (jsonOf v)), ("versions".toList, some (jsonOf (rootVal d)))] := by
      simp only [otherOut]
      rw [need_local (hown _ (List.mem_cons_of_mem _ List.mem_cons_self)), hv, need_file hd hne hwf]
      rfl
    refine ⟨_, key _ _ k1 ho, rfl, fun info t => ?_⟩
    have hs : ∀ w : JT, description .config ver front ([("version".toList, some (jsonOf v)), ("versions".toList, some w)] ++ compat ++ parts.1) info t =
        (front ++ headOut .config info t ++ [("version".toList, some (jsonOf v))]) ++ ("versions".toList, some w) ::
          (compat ++ parts.1 ++ [("obj_version".toList, some (.str ver))]) := by
      intro w
      simp only [description, List.append_assoc, List.cons_append, List.nil_append]
    simp only [hs]
    exact butFor_mid _ _ _ _
  | extension =>
    simp only [frontOut, Option.bind_eq_some_iff, Option.map_eq_some_iff] at k1
    obtain ⟨v, hv, ci, hci, rfl⟩ := k1
    have hf : frontOut .extension e.tool fu root = some [("configinfo".toList, some (jsonOf root)), ("v8unpack".toList, some (.str e.tool)), ("file_uuid".toList, some (.str fu)),
       ("version".toList, some (jsonOf v)), ("copyinfo".toList, some (jsonOf ci))] := by
      simp only [frontOut, h01, hv, h1, hci, Option.bind_some, Option.map_some]
    refine ⟨_, key _ _ hf k2, rfl, fun info t => ?_⟩
    have hs : ∀ w : JT, description .extension ver ([("configinfo".toList, some w), ("v8unpack".toList, some (.str e.tool)), ("file_uuid".toList, some (.str fu)),
       ("version".toList, some (jsonOf v)), ("copyinfo".toList, some (jsonOf ci))]) (other ++ compat ++ parts.1) info t =
        [] ++ ("configinfo".toList, some w) :: ([("v8unpack".toList, some (.str e.tool)), ("file_uuid".toList, some (.str fu)),
       ("version".toList, some (jsonOf v)), ("copyinfo".toList, some (jsonOf ci))] ++ headOut .extension info t ++ (other ++ compat ++ parts.1) ++ [("obj_version".toList, some (.str ver))]) := by
      intro w
      simp only [description, List.append_assoc, List.cons_append, List.nil_append]
    simp only [hs]
    exact butFor_mid _ _ _ _
  | processor =>
    rw [hsame (fun h => by cases h)] at key ⊢
    have ho : otherOut .processor e.tool F' u = some other := by
      rw [← k2]
      simp only [otherOut, form1Out]
      rw [need_local (hown _ (List.mem_cons_of_mem _ List.mem_cons_self)), need_local (hown _ (List.mem_cons_of_mem _ (List.mem_cons_of_mem _ List.mem_cons_self))),
        fileAt_local (hown _ (List.mem_cons_of_mem _ (List.mem_cons_of_mem _ (List.mem_cons_of_mem _ (List.mem_cons_of_mem _ List.mem_cons_self)))))]
    exact ⟨_, key _ _ k1 ho, rfl, fun info t => rfl⟩

/-- **C80, the container.**  A container that a build could have made from another one (`Rebuilt`: C62 and C67 say that it does make such a one) is recognized as a product
of the same class and version, and its sources are those of the other, byte by byte, but for the entry `versions` of the description of a configuration and the entry
`configinfo` of the description of an extension. -/
theorem C80_product (types : List (Text × Text)) (C : Text → Option Class) (g : V8.FormObj.Lim) (e : Env) (c : Cls) (ver : Text) (F F' : Text → Option Node)
    (nm : Val → Text) (n : Nat) (info : Info) (dir : Dir) (file fu u : Text) (dr dh : List (List Val)) (hC : ClassesOk C) (hp : e.y.p = e.x.p)
    (hT : ∀ u, e.types u ≠ some "ConfigurationExtension".toList) (hd : detect e F = some (c, ver))
    (hx : extractProduct e (handlers C g e.x e.y ver) c ver F n = some (info, dir)) (hok : ProductOk e c ver F file fu u dr dh)
    (hin : InnerOk types C g e c ver F nm dh) (hb : Rebuilt C e c F F' fu u dr dh) :
    detect e F' = some (c, ver) ∧ ∃ dir', extractProduct e (handlers C g e.x e.y ver) c ver F' n = some (info, dir') ∧ SameSources c e.x.win dir dir' := by
  refine ⟨again_detect hok hT hd hb, ?_⟩
  unfold extractProduct at hx
  simp only [Option.bind_eq_some_iff] at hx
  obtain ⟨⟨info', os, src⟩, hroot, subs, hsubs, hx⟩ := hx
  by_cases hnod : (subs.map (fun s => (s.1, s.2.1))).Nodup
  case neg => rw [if_neg hnod] at hx; cases hx
  rw [if_pos hnod] at hx
  cases hx
  obtain ⟨root, fu', v, hd', h', h1, b, ps, t, g1, g2, g3, g4, g5, g6, g7, g8, g9, rfl⟩ := rootOut_some hroot
  rw [need_file hok.root hok.rootNe hok.rootWf] at g1
  cases g1
  rw [hok.fileAt] at g2
  cases g2
  rw [need_file hok.head hok.headNe hok.headWf] at g3
  cases g3
  have hhd : headOf c dh = hd' := by unfold headOf; rw [g4]
  have hh' := header_same g5 (fun tok ht => hok.noPrefix tok (by rw [hhd]; exact ht))
  subst hh'
  have hset := g6
  rw [setAt_getAt _ _ _ g4] at g6
  cases g6
  have hu : info'.uuid = u := uuid_info g5 (by rw [← hhd]; exact hok.uuid)
  obtain ⟨root', r1, r2, r3, r4, r5⟩ := again_root hok hb
  rw [hu] at g7
  obtain ⟨b', q1, q2, q3⟩ := again_beside hok hb r1 r3 r4 r5 g7
  have hneed : need F' fu = some (rootVal dh) := by
    rw [need_local (hb.same _ (.inl (own_head c u fu)))]
    exact need_file hok.head hok.headNe hok.headWf
  have hrootOut : rootOut e c ver F' = some (info', os, b'.2.2 ++ [(objName (kindOf c).name, some (fileOf e.x.win (.obj (written (description c ver b'.1 b'.2.1 info' t)))))]) := by
    unfold rootOut
    simp only [r1, Option.bind_some, r2, strOf, hneed, g4, listOf, g5, Except.toOption, hset, hu, q1, g8, g9, Option.map_some]
  have hcon : conOut c F' = conHeader c (rootVal dh) := by
    unfold conOut
    rw [r1, Option.bind_some, r2]
    simp only [strOf, Option.bind_some]
    rw [hneed, Option.bind_some]
  have hcon0 : conOut c F = conHeader c (rootVal dh) := by
    unfold conOut
    rw [need_file hok.root hok.rootNe hok.rootWf, Option.bind_some, hok.fileAt]
    simp only [strOf, Option.bind_some]
    rw [need_file hok.head hok.headNe hok.headWf, Option.bind_some]
  rw [hcon0] at hsubs
  have hfit := hin.lists ps g8
  have hlisted := takeLists_listed _ _ _ _ _ g9 hfit.tidy hfit.count (listPaths_apart g8)
  have hkid : ∀ o ∈ os, InProduct e c dh o.ty o.orig := by
    intro o ho
    refine ⟨ps, g8, ?_⟩
    rw [← hlisted]
    exact List.mem_map.mpr ⟨o, ho, rfl⟩
  have hgo : ∀ G : Text → Option Node, extractTree (handlers C g e.x e.y ver) G n = extractTree (handlers C g e.x (bldOf e c dh) ver) G n := fun G =>
    funext fun co => funext fun a => funext fun b => extractTree_congr (handlers_out C g e.x e.y (bldOf e c dh) ver) n co a b
  have hsubs' : extractKids (extractTree (handlers C g e.x e.y ver) F' n (conHeader c (rootVal dh))) os = some subs := by
    refine extractKids_local hsubs (fun o ho r hr => ?_)
    rw [hgo] at hr ⊢
    have hi := hkid o ho
    exact C80_tree hC (y := bldOf e c dh) hp n _ _ _ _ _ hr (hin.fit _ _ hi) (fun con' ty' v' h' => ⟨_, hin.deep _ _ _ _ _ hi h'⟩)
      (fun m hm => hb.same m (.inr ⟨_, _, hi, .inl hm⟩)) (fun con' ty' v' h' m hm => hb.same m (.inr ⟨_, _, hi, .inr ⟨_, _, _, h', hm⟩⟩))
  refine ⟨.mk (nodes (b'.2.2 ++ [(objName (kindOf c).name, some (fileOf e.x.win (.obj (written (description c ver b'.1 b'.2.1 info' t)))))])) (.ofList subs), ?_, ?_⟩
  · unfold extractProduct
    rw [hrootOut, Option.bind_some, hcon]
    simp only [hsubs', Option.bind_some]
    rw [if_pos hnod]
  · rw [q2]
    exact ⟨b.2.2, _, _, _, rfl, rfl, q3 info' t⟩

end V8.Root
