import Verif.Props.RootDesc
/-
C62: a whole product, from the container folder to the sources and back.
-/
namespace V8.Root
open V8.Brace V8.Enc V8.JsonText V8.Header V8.Store V8.Tree V8.Embed
open V8.Nested hiding Env Handler
open V8.Object hiding Cls
open V8.Product (getAt setAt getAt_setAt setAt_getAt setAt_some getAt_frame setAt_setAt Options)
open V8.Misc (Cls)

/-! ### what is asked of a product -/

/-- a file in the layout of the serializer -/
def Stored (win : Bool) (n : Option Node) : Prop := ∃ d, n = some (.file (braceFile win d)) ∧ d ≠ [] ∧ WFFile d

/-- the list decode_header works on -/
def headOf (c : Cls) (d : List (List Val)) : List Val := match getAt (rootVal d) (kindOf c).head with
  | some (.list h) => h
  | _ => []

/-- what is asked of the product itself: `dr` is the data of the file `root` (or `configinfo`), `dh` the data of its header -/
structure ProductOk (e : Env) (c : Cls) (ver : Text) (F : Text → Option Node) (file fu u : Text) (dr dh : List (List Val)) : Prop where
  root : F (rootName c) = some (.file (braceFile e.y.win dr))
  rootNe : dr ≠ []
  rootWf : WFFile dr
  fileAt : getAt (rootVal dr) (filePath c) = some (.str fu)
  /-- the build writes a fixed `root` for external data processors -/
  edp : c = .processor → dr = edpRoot fu
  head : F fu = some (.file (braceFile e.y.win dh))
  headNe : dh ≠ []
  headWf : WFFile dh
  uuid : uuidAt (headOf c dh) = some u
  /-- the product's own name does not have the prefix -/
  noPrefix : ∀ tok, (headOf c dh)[2]? = some (.str tok) → ¬ (e.x.p ≠ [] ∧ e.x.p <+: V8.Module.strDecode tok)
  /-- the group of the product's own header is not in the layout `6` -/
  six : c ≠ .processor → getAt (rootVal dh) [0, 3, 1, 0] ≠ some (.str ['6'])
  version : c ≠ .extension → Stored e.y.win (F "version".toList)
  copyinfo : c = .processor → Stored e.y.win (F "copyinfo".toList)
  form1 : c = .processor → InfoOk e.y.win (F (dot u "1".toList))
  parts : PartsOk e.y.win (kindOf c) (directives c ver) F u
  /-- no option changes the mode, the prefix or the version -/
  mode : c ≠ .processor → e.o.version = none
  plain : c = .extension → e.o.product = [] ∧ e.o.pfx = none ∧ ∃ v tok, '\r' ∉ v ∧
    getAt (rootVal dh) V8.Product.versionPath = some (.str (V8.Module.strEncode v)) ∧ (headOf c dh)[4]? = some (.str tok) ∧
    (¬ V8.Product.mark <:+: V8.Module.strDecode tok ∨ v = [])
  comment : c = .processor → file = [] ∨ ∃ tok, (headOf c dh)[4]? = some (.str tok) ∧
    (¬ V8.Product.mark <:+: V8.Module.strDecode tok ∨ e.o.productVersion = [])

/-- the lists of a product are in the usual form -/
structure ListsFit (E : Nested.Env) (v : Val) (ps : List (List Nat)) : Prop where
  count : ∀ p ∈ ps, getAt v (p ++ [2]) = some (.str (V8.Dec.showNat (slotsAt v p).length))
  tidy : ∀ p ∈ ps, ∀ s ∈ slotsAt v p, Tidy E s

/-- the first of them -/
def frontNames (u fu : Text) : Cls → List Text
  | .config => ["root".toList, "version".toList, fu]
  | .extension => [fu]
  | .processor => ["root".toList, "version".toList, "copyinfo".toList, fu, dot u "1".toList]

/-- the names of the files of the product itself that come back; the files `versions` and (for extensions) `configinfo` are made anew -/
def ownNames (c : Cls) (u fu : Text) : List Text := frontNames u fu c ++ partNames (kindOf c) u ++ (kindOf c).infos.map (dot u)

/-- the file `configinfo` of a built extension: version row and copyinfo are kept, the rest is new -/
def newInfo (v : Val) (row : List Val) : List (List Val) := [[.str ['0'], v], row, [.str "____versions____".toList]]

/-! ### pieces -/

theorem need_file {F : Text → Option Node} {win : Bool} {n : Text} {d : List (List Val)} (hF : F n = some (.file (braceFile win d))) (hne : d ≠ [])
    (hd : WFFile d) : need F n = some (rootVal d) := by
  unfold need
  rw [hF]
  exact tree_file win d hne hd

theorem treeEntry_of (j : JT) (key : Text) (d : List (List Val)) (h : entry j key = some (jsonOf (rootVal d))) : treeEntry j key = some d := by
  unfold treeEntry
  rw [h]
  simp only [Option.bind_some, valOf_jsonOf, rootOf_rootVal]

theorem mem_front {c : Cls} {ver : Text} {a b : List (Place JT)} {info : Info} {t : Val} {q : Place JT} (h : q ∈ a) : q ∈ description c ver a b info t :=
  List.mem_append_left _ (List.mem_append_left _ (List.mem_append_left _ h))

theorem mem_head {c : Cls} {ver : Text} {a b : List (Place JT)} {info : Info} {t : Val} {q : Place JT} (h : q ∈ headOut c info t) :
    q ∈ description c ver a b info t :=
  List.mem_append_left _ (List.mem_append_left _ (List.mem_append_right _ h))

theorem mem_after {c : Cls} {ver : Text} {a b : List (Place JT)} {info : Info} {t : Val} {q : Place JT} (h : q ∈ b) : q ∈ description c ver a b info t :=
  List.mem_append_left _ (List.mem_append_right _ h)

theorem head_uuid (c : Cls) (info : Info) (t : Val) : ("uuid".toList, some (JT.str info.uuid)) ∈ headOut c info t ∧
    ("header".toList, some (jsonOf t)) ∈ headOut c info t := by
  cases c <;> simp [headOut]

theorem mem_written_map {F : Text → Option Node} {l : List Text} {m : Text} {nd : Node} :
    (m, nd) ∈ written (l.map (fun n => (n, F n))) ↔ m ∈ l ∧ F m = some nd := by
  rw [mem_written, List.mem_map]
  constructor
  · rintro ⟨n, hn, he⟩
    rw [Prod.mk.injEq] at he
    obtain ⟨rfl, h2⟩ := he
    exact ⟨hn, h2⟩
  · rintro ⟨h1, h2⟩
    exact ⟨m, h1, by rw [h2]⟩

theorem uuid_info {valid : Text → Bool} {p : Text} {h h' : List Val} {info : Info} {u : Text} (hd : decodeHeader valid p false h = .ok (info, h'))
    (hu : uuidAt h = some u) : info.uuid = u := by
  obtain ⟨l, tok, h1, h2, _⟩ := decode_ok hd
  rw [uuidAt_of h1 h2] at hu
  exact Option.some.inj hu

theorem header_same {valid : Text → Bool} {p : Text} {h h' : List Val} {info : Info} (hd : decodeHeader valid p false h = .ok (info, h'))
    (hp : ∀ tok, h[2]? = some (.str tok) → ¬ (p ≠ [] ∧ p <+: V8.Module.strDecode tok)) : h' = h := by
  obtain ⟨l, tok, _, _, _, h2, _, h3⟩ := decode_ok hd
  simp only [if_neg (hp tok h2), Bool.false_eq_true, if_false] at h3
  exact h3

/-- the version with which the objects of the product are built: that of the options, for an extension its own -/
def versionOf (e : Env) (c : Cls) (dh : List (List Val)) : Text := match c with
  | .extension => match getAt (rootVal dh) V8.Product.versionPath with
    | some (.str tok) => V8.Module.strDecode tok
    | _ => []
  | _ => e.o.productVersion

/-- the options of the build of the nested objects -/
def bldOf (e : Env) (c : Cls) (dh : List (List Val)) : Bld := { e.y with prod := versionOf e c dh }

/-- the header is not changed by a build without options -/
theorem headerIn_same {e : Env} {c : Cls} {ver file fu u : Text} {F : Text → Option Node} {dr dh : List (List Val)} (hok : ProductOk e c ver F file fu u dr dh)
    {t : Val} {j : JT} {S : Text → Option Bytes} {hd : List Val} (hg : getAt (rootVal dh) (kindOf c).head = some (.list hd))
    (hcalm : ∀ r, getAt t (0 :: 3 :: 1 :: 1 :: r) = getAt (rootVal dh) (0 :: 3 :: 1 :: 1 :: r))
    (hmode : ∀ slot, (kindOf c).compat = some slot → ∃ v, getAt (rootVal dh) slot = some v ∧ entry j "compatibility_version".toList = some (jsonOf v))
    (hver : c ≠ .extension → S "version.bin".toList = none)
    (hvb : c = .extension → ∃ b, V8.Product.versionFile e.x.win (rootVal dh) = some b ∧ S "version.bin".toList = some b) :
    ∃ o, optionsIn e.o (S "version.bin".toList) = some o ∧ headerIn c o file j t = some t ∧ o.productVersion = versionOf e c dh := by
  have hhd : headOf c dh = hd := by unfold headOf; rw [hg]
  cases c with
  | config =>
    refine ⟨e.o, ?_, ?_, rfl⟩
    · rw [hver (by decide)]
      rfl
    · obtain ⟨v, h1, h2⟩ := hmode V8.Product.compatConf rfl
      have hm : modeOf j = some (some v) := by
        unfold modeOf
        rw [h2]
        simp only [valOf_jsonOf, Option.map_some]
      show (modeOf j).bind (fun m => V8.Product.buildCompat V8.Product.compatConf e.o m t) = some t
      rw [hm, Option.bind_some, V8.Product.buildCompat, hok.mode (by decide)]
      refine setAt_getAt _ _ _ ?_
      rw [← h1]
      exact hcalm [26]
  | processor =>
    refine ⟨e.o, ?_, ?_, rfl⟩
    · rw [hver (by decide)]
      rfl
    · show V8.Product.setInfoEdp e.o file t = some t
      unfold V8.Product.setInfoEdp
      rcases hok.comment rfl with hf | ⟨tok, h1, h2⟩
      · rw [if_pos hf]
      · by_cases hf : file = []
        · rw [if_pos hf]
        · rw [if_neg hf]
          refine V8.Product.C55_comment_kept _ _ _ _ tok ?_ h2
          have : getAt t (V8.Product.edpHeader ++ [4]) = getAt (rootVal dh) (V8.Product.edpHeader ++ [4]) := hcalm [3, 1, 4]
          rw [this, getAt_append]
          have hg' : getAt (rootVal dh) V8.Product.edpHeader = some (.list hd) := hg
          rw [hg', Option.bind_some]
          rw [hhd] at h1
          simp only [getAt, h1, Option.bind_some]
  | extension =>
    obtain ⟨hprod, hpfx, v, tok, hr, hv, htok, hn⟩ := hok.plain rfl
    obtain ⟨b, hb, hS⟩ := hvb rfl
    obtain ⟨m, hm1, hm2⟩ := hmode V8.Product.compatExt rfl
    have hc4 : getAt t (V8.Product.rootHeader ++ [4]) = some (.str tok) := by
      have : getAt t (V8.Product.rootHeader ++ [4]) = getAt (rootVal dh) (V8.Product.rootHeader ++ [4]) := hcalm [1, 1, 4]
      rw [this, getAt_append]
      have hg' : getAt (rootVal dh) V8.Product.rootHeader = some (.list hd) := hg
      rw [hg', Option.bind_some]
      rw [hhd] at htok
      simp only [getAt, htok, Option.bind_some]
    have hvt : getAt t V8.Product.versionPath = some (.str (V8.Module.strEncode v)) := by
      rw [← hv]
      exact hcalm [15]
    have hmt : getAt t V8.Product.compatExt = some m := by
      rw [← hm1]
      exact hcalm [43]
    have hfile : V8.Product.versionFile e.x.win t = some b := by
      rw [(V8.Product.readVersion_versionFile e.x.win t _ hvt).1, ← hb, (V8.Product.readVersion_versionFile e.x.win _ _ hv).1]
    obtain ⟨s, hs1, hs2⟩ := V8.Product.C55_extension_round_trip e.x.win e.o e.o file t v tok m hr hvt hc4 hmt hn hprod (hok.mode (by decide)) hpfx
    have hs : s = ⟨t, some m, some b⟩ := by
      simp only [V8.Product.extractExt, hfile, Option.bind_some, V8.Product.extractCompat, V8.Product.decodeCompat, hmt, Option.map_some,
        Option.some.injEq] at hs1
      exact hs1.symm
    subst hs
    unfold V8.Product.buildExt at hs2
    cases hrv : V8.Product.readVersion (some b) with
    | none => simp only [hrv] at hs2; cases hs2
    | some pv =>
      simp only [hrv] at hs2
      refine ⟨{ e.o with productVersion := pv }, ?_, ?_, ?_⟩
      · rw [hS]
        simp only [optionsIn, hrv, Option.map_some]
      · have hm : modeOf j = some (some m) := by
          unfold modeOf
          rw [hm2]
          simp only [valOf_jsonOf, Option.map_some]
        show (modeOf j).bind (fun m => _) = some t
        rw [hm, Option.bind_some]
        exact hs2
      · show pv = _
        unfold versionOf
        simp only [hv]
        obtain ⟨g1, g2⟩ := V8.Product.readVersion_versionFile e.x.win _ _ hv
        rw [hb, hrv] at g2
        rw [Option.some.inj g2, V8.Module.strDecode_strEncode]
        have := io_clean e.x.win v [] hr
        rw [List.append_nil] at this
        rw [this]
        show v ++ universal (osWrite e.x.win []) = v
        cases e.x.win <;> simp [osWrite, universal]

theorem form1_of {win : Bool} {F : Text → Option Node} {u : Text} {r : List (Place JT)} {j : JT} (h : form1Out F u = some r)
    (hj : ∀ q ∈ r, entry j q.1 = q.2) (hok : InfoOk win (F (dot u "1".toList))) :
    ∃ f, form1In j = some f ∧ f.map (fun d => Node.file (braceFile win d)) = F (dot u "1".toList) := by
  simp only [form1Out, Option.bind_eq_some_iff, Option.map_eq_some_iff] at h
  obtain ⟨g, hg, w, hw, rfl⟩ := h
  have h1 : entry j "form1".toList = some ((w.map jsonOf).getD .null) := hj _ List.mem_cons_self
  unfold form1In
  rw [h1]
  rcases hok with hn | ⟨d, hn, hne, hd⟩
  · unfold fileAt at hg
    rw [hn] at hg
    cases hg
    cases hw
    exact ⟨none, rfl, by rw [hn]; rfl⟩
  · unfold fileAt at hg
    rw [hn] at hg
    cases hg
    rw [optTree, tree_file win d hne hd] at hw
    cases hw
    refine ⟨some d, ?_, by rw [hn]; rfl⟩
    simp only [Option.map_some, Option.getD_some, falsy_root d hne, Bool.false_eq_true, if_false, valOf_jsonOf, Option.bind_some, rootOf_rootVal]

theorem stored_need {win : Bool} {F : Text → Option Node} {n : Text} {v : Val} (hs : Stored win (F n)) (h : need F n = some v) :
    ∃ d, v = rootVal d ∧ F n = some (.file (braceFile win d)) := by
  obtain ⟨d, hF, hne, hd⟩ := hs
  rw [need_file hF hne hd] at h
  cases h
  exact ⟨d, rfl, hF⟩

theorem front_back {e : Env} {c : Cls} {ver file fu u : Text} {F : Text → Option Node} {dr dh : List (List Val)} (hok : ProductOk e c ver F file fu u dr dh)
    {front other : List (Place JT)} {j : JT} (hf : frontOut c e.tool fu (rootVal dr) = some front) (ho : otherOut c e.tool F u = some other)
    (hj1 : ∀ q ∈ front, entry j q.1 = q.2) (hj2 : ∀ q ∈ other, entry j q.1 = q.2) :
    toolOf j = some e.tool ∧ textAt j "file_uuid".toList = some fu ∧
      (c ≠ .extension → frontIn c e.y.win j u fu (.file (braceFile e.y.win dh)) = some ((frontNames u fu c).map (fun n => (n, F n)))) ∧
      (c = .extension → ∃ v row, getAt (rootVal dr) [0, 1] = some v ∧ getAt (rootVal dr) [1] = some (.list row) ∧
        frontIn c e.y.win j u fu (.file (braceFile e.y.win dh)) = some [("configinfo".toList, some (.file (braceFile e.y.win (newInfo v row)))), (fu, F fu)]) := by
  have htool : entry j "v8unpack".toList = some (.str e.tool) → toolOf j = some e.tool := by
    intro h
    unfold toolOf
    rw [h]
  have htext : entry j "file_uuid".toList = some (.str fu) → textAt j "file_uuid".toList = some fu := by
    intro h
    cases j with
    | obj d =>
      have h : dget d "file_uuid".toList = some (.str fu) := h
      unfold textAt
      simp only [h]
    | _ => cases h
  cases c with
  | config =>
    simp only [frontOut, Option.some.injEq] at hf
    subst hf
    simp only [otherOut, Option.bind_eq_some_iff, Option.map_eq_some_iff] at ho
    obtain ⟨v, hv, vs, _, rfl⟩ := ho
    obtain ⟨d, rfl, hF⟩ := stored_need (hok.version (by decide)) hv
    refine ⟨htool (hj1 _ List.mem_cons_self), htext (hj1 _ (List.mem_cons_of_mem _ List.mem_cons_self)), fun _ => ?_, fun h => by cases h⟩
    have e1 := treeEntry_of j "root".toList dr (hj1 _ (List.mem_cons_of_mem _ (List.mem_cons_of_mem _ List.mem_cons_self)))
    have e2 := treeEntry_of j "version".toList d (hj2 _ List.mem_cons_self)
    have hr : F "root".toList = some (.file (braceFile e.y.win dr)) := hok.root
    simp only [frontIn, e1, e2, Option.bind_some, Option.map_some, frontNames, List.map_cons, List.map_nil, hr, hF, hok.head]
  | extension =>
    simp only [frontOut, Option.bind_eq_some_iff, Option.map_eq_some_iff] at hf
    obtain ⟨v, hv, ci, hci, rfl⟩ := hf
    have hci2 : ∃ row, ci = .list row := by
      have := hok.fileAt
      have h2 : getAt (rootVal dr) [1, 1] = (getAt (rootVal dr) [1]).bind (fun w => getAt w [1]) := getAt_append [1] [1] _
      rw [show filePath .extension = [1, 1] from rfl, h2, hci, Option.bind_some] at this
      cases ci with
      | list row => exact ⟨row, rfl⟩
      | none => cases this
      | str s => cases this
    obtain ⟨row, rfl⟩ := hci2
    refine ⟨htool (hj1 _ (List.mem_cons_of_mem _ List.mem_cons_self)), htext (hj1 _ (List.mem_cons_of_mem _ (List.mem_cons_of_mem _ List.mem_cons_self))),
      fun h => absurd rfl h, fun _ => ⟨v, row, hv, hci, ?_⟩⟩
    have e1 : entry j "version".toList = some (jsonOf v) :=
      hj1 _ (List.mem_cons_of_mem _ (List.mem_cons_of_mem _ (List.mem_cons_of_mem _ List.mem_cons_self)))
    have e2 : entry j "copyinfo".toList = some (jsonOf (.list row)) :=
      hj1 _ (List.mem_cons_of_mem _ (List.mem_cons_of_mem _ (List.mem_cons_of_mem _ (List.mem_cons_of_mem _ List.mem_cons_self))))
    have e3 : rootOf (extRoot v (.list row)) = some (newInfo v row) := rootOf_rootVal (newInfo v row)
    simp only [frontIn, e1, e2, e3, Option.bind_some, valOf_jsonOf, Option.map_some, hok.head]
  | processor =>
    simp only [frontOut, Option.some.injEq] at hf
    subst hf
    simp only [otherOut, Option.bind_eq_some_iff, Option.map_eq_some_iff] at ho
    obtain ⟨v, hv, ci, hci, f, hf1, rfl⟩ := ho
    obtain ⟨d, rfl, hF⟩ := stored_need (hok.version (by decide)) hv
    obtain ⟨d2, rfl, hF2⟩ := stored_need (hok.copyinfo rfl) hci
    obtain ⟨g, hg1, hg2⟩ := form1_of hf1 (fun q hq => hj2 q (List.mem_append_right _ hq)) (hok.form1 rfl)
    refine ⟨htool (hj2 _ List.mem_cons_self), htext (hj1 _ (List.mem_cons_of_mem _ List.mem_cons_self)), fun _ => ?_, fun h => by cases h⟩
    have e1 := treeEntry_of j "version".toList d (hj2 _ (List.mem_cons_of_mem _ List.mem_cons_self))
    have e2 := treeEntry_of j "copyinfo".toList d2 (hj2 _ (List.mem_cons_of_mem _ (List.mem_cons_of_mem _ List.mem_cons_self)))
    have hr : F "root".toList = some (.file (braceFile e.y.win dr)) := hok.root
    rw [hok.edp rfl] at hr
    simp only [frontIn, e1, e2, hg1, hg2, Option.bind_some, Option.map_some, frontNames, List.map_cons, List.map_nil, hr, hF, hF2, hok.head]

/-! ### the class chosen by the build -/

theorem typeId_getAt (v : Val) : V8.Misc.typeId v = (getAt v [0, 3, 0]).bind V8.Misc.str' := by
  have key : ∀ (i : Nat) (r : List Nat) (w : Val), getAt w (i :: r) = (V8.Misc.at' i w).bind (fun x => getAt x r) := by
    intro i r w
    cases w with
    | none => rfl
    | str s => rfl
    | list l =>
      simp only [getAt, V8.Misc.at']
      cases l[i]? <;> rfl
  have nil : ∀ w : Val, getAt w [] = some w := by intro w; cases w <;> rfl
  rw [V8.Misc.typeId, key]
  cases V8.Misc.at' 0 v with
  | none => rfl
  | some a =>
    simp only [Option.bind_some]
    rw [key]
    cases V8.Misc.at' 3 a with
    | none => rfl
    | some b =>
      simp only [Option.bind_some]
      rw [key]
      cases V8.Misc.at' 0 b with
      | none => rfl
      | some d =>
        simp only [Option.bind_some, nil]

/-- a configuration or an external data processor is not recognized by `configinfo` -/
theorem handler_plain {T : Text → Option Text} {r : Bool} {v h : Val} {ci : Option Val} {c : Cls} {ver : Text} (hc : c ≠ .extension)
    (hh : V8.Misc.handler T r v h ci = some (c, ver)) (ci' : Option Val) : r = true ∧ V8.Misc.handler T r v h ci' = some (c, ver) := by
  rcases (V8.Misc.C39_handler_iff _ _ _ _ _ _ _).mp hh with ⟨h1, row, n, h2, h3, h4 | h4 | h4⟩ | ⟨_, h2, _⟩
  · exact ⟨h1, (V8.Misc.C39_handler_iff _ _ _ _ _ _ _).mpr (.inl ⟨h1, row, n, h2, h3, .inl h4⟩)⟩
  · exact ⟨h1, (V8.Misc.C39_handler_iff _ _ _ _ _ _ _).mpr (.inl ⟨h1, row, n, h2, h3, .inr (.inl h4)⟩)⟩
  · exact absurd h4.2.2.1 hc
  · exact absurd h2 hc

/-- an extension is recognized by `configinfo` alone -/
theorem handler_ext {T : Text → Option Text} {r : Bool} {v h : Val} {ci : Option Val} {ver : Text} (hT : ∀ u, T u ≠ some "ConfigurationExtension".toList)
    (hh : V8.Misc.handler T r v h ci = some (.extension, ver)) (v' h' : Val) : V8.Misc.handler T false v' h' ci = some (.extension, ver) := by
  have hx : V8.Misc.ExtensionOf ci ver := by
    rcases (V8.Misc.C39_handler_iff _ _ _ _ _ _ _).mp hh with ⟨_, row, n, _, _, h4 | h4 | h4⟩ | ⟨_, _, h3⟩
    · obtain ⟨_, u, ty, _, hty, hcl, _⟩ := h4
      cases hcl
      exact absurd hty (hT u)
    · cases h4.2.2.1
    · exact h4.2.2.2
    · exact h3
  exact (V8.Misc.C39_handler_iff _ _ _ _ _ _ _).mpr (.inr ⟨rfl, rfl, hx⟩)

theorem encoder_found {c : Cls} {src : List (Place Bytes)} {b : Bytes} (hn : src.map (·.1) = sourceNames c) (hb : folder src (objName (kindOf c).name) = some b) :
    V8.Misc.getEncoder (fun n => (folder src n).isSome) = some (kindOf c).name := by
  have hobj : ∀ t : Text, t ++ ".json".toList = objName t := fun t => rfl
  rw [V8.Misc.C39_encoder]
  refine ⟨(V8.Misc.available.map (·.1)).takeWhile (fun t => decide (t ≠ (kindOf c).name)),
    ((V8.Misc.available.map (·.1)).dropWhile (fun t => decide (t ≠ (kindOf c).name))).tail, ?_, ?_, ?_⟩
  · cases c <;> decide +kernel
  · rw [hobj, hb]; rfl
  · intro x hx
    rw [hobj, folder_none _ _ (by rw [hn]; exact other_json c x hx)]
    rfl

theorem detected {e : Env} {c : Cls} {ver file fu u : Text} {F : Text → Option Node} {dr dh : List (List Val)} (hok : ProductOk e c ver F file fu u dr dh)
    (hd : detect e F = some (c, ver)) :
    (c ≠ .extension → ∃ v ci, need F "version".toList = some v ∧ V8.Misc.handler e.types true v (rootVal dh) ci = some (c, ver)) ∧
      (c = .extension → ∃ r v h, V8.Misc.handler e.types r v h (some (rootVal dr)) = some (c, ver)) := by
  unfold detect at hd
  rw [Option.bind_eq_some_iff] at hd
  obtain ⟨a, ha, hd⟩ := hd
  rw [Option.bind_eq_some_iff] at hd
  obtain ⟨ci, hci, hd⟩ := hd
  constructor
  · intro hc
    have hroot : rootName c = "root".toList := by cases c <;> first | rfl | exact absurd rfl hc
    have hpath : filePath c = [0, 1] := by cases c <;> first | rfl | exact absurd rfl hc
    have hF := hok.root
    rw [hroot] at hF
    have hat := hok.fileAt
    rw [hpath] at hat
    simp only [hF, need_file hF hok.rootNe hok.rootWf, Option.bind_some, Option.bind_eq_some_iff, Option.map_eq_some_iff] at ha
    obtain ⟨v, hv, fu', ⟨w, hw, hw'⟩, h, hh, rfl⟩ := ha
    rw [hat] at hw
    cases hw
    cases hw'
    rw [need_file hok.head hok.headNe hok.headWf] at hh
    cases hh
    obtain ⟨h1, _⟩ := handler_plain hc hd none
    simp only at h1
    rw [h1] at hd
    exact ⟨v, ci, hv, hd⟩
  · rintro rfl
    have hF : F "configinfo".toList = some (.file (braceFile e.y.win dr)) := hok.root
    simp only [hF, need_file hF hok.rootNe hok.rootWf, Option.map_some, Option.some.injEq] at hci
    subst hci
    exact ⟨a.1, a.2.1, a.2.2, hd⟩

/-- the build chooses the class that took the product apart -/
theorem class_back {e : Env} {c : Cls} {ver file fu u : Text} {F : Text → Option Node} {dr dh : List (List Val)} (hok : ProductOk e c ver F file fu u dr dh)
    (hd : detect e F = some (c, ver)) (hT : ∀ u, e.types u ≠ some "ConfigurationExtension".toList) {front other : List (Place JT)} {t : Val} {j : JT}
    (hf : frontOut c e.tool fu (rootVal dr) = some front) (ho : otherOut c e.tool F u = some other)
    (hj1 : ∀ q ∈ front, entry j q.1 = q.2) (hj2 : ∀ q ∈ other, entry j q.1 = q.2) (hj3 : entry j "header".toList = some (jsonOf t))
    (hno : ∀ n, n ∉ keysOf c → entry j n = none) (hty : getAt t [0, 3, 0] = getAt (rootVal dh) [0, 3, 0]) :
    V8.Misc.handler e.types (!((entry j "root".toList).map falsy).getD true) (argOf j "version".toList) (argOf j "header".toList)
      (((entry j "configinfo".toList).bind valOf).filter Embed.truthy) = some (c, ver) := by
  obtain ⟨h1, h2⟩ := detected hok hd
  have hhead : argOf j "header".toList = t := by
    unfold argOf
    rw [hj3]
    simp only [Option.bind_some, valOf_jsonOf, Option.getD_some]
  have hid : V8.Misc.typeId (rootVal dh) = V8.Misc.typeId t := by rw [typeId_getAt, typeId_getAt, hty]
  have hargs : ∀ v, entry j "version".toList = some (jsonOf v) → argOf j "version".toList = v := by
    intro v h
    unfold argOf
    rw [h]
    simp only [Option.bind_some, valOf_jsonOf, Option.getD_some]
  cases c with
  | config =>
    obtain ⟨v, ci, hv, hh⟩ := h1 (by decide)
    simp only [frontOut, Option.some.injEq] at hf
    subst hf
    simp only [otherOut, Option.bind_eq_some_iff, Option.map_eq_some_iff] at ho
    obtain ⟨v', hv', vs, _, rfl⟩ := ho
    rw [hv] at hv'
    cases hv'
    have e1 : entry j "root".toList = some (jsonOf (rootVal dr)) := hj1 _ (List.mem_cons_of_mem _ (List.mem_cons_of_mem _ List.mem_cons_self))
    rw [hno _ ((not_keys .config).2 (by decide)), hhead, hargs v (hj2 _ List.mem_cons_self), e1]
    simp only [Option.map_some, Option.getD_some, falsy_root dr hok.rootNe, Bool.not_false]
    rw [V8.Misc.C39_same_at_build _ _ _ _ _ _ hid] at hh
    exact (handler_plain (by decide) hh _).2
  | processor =>
    obtain ⟨v, ci, hv, hh⟩ := h1 (by decide)
    simp only [frontOut, Option.some.injEq] at hf
    subst hf
    simp only [otherOut, Option.bind_eq_some_iff, Option.map_eq_some_iff] at ho
    obtain ⟨v', hv', ci', _, f, _, rfl⟩ := ho
    rw [hv] at hv'
    cases hv'
    have e1 : entry j "root".toList = some (.bool true) := hj1 _ List.mem_cons_self
    rw [hno _ ((not_keys .processor).2 (by decide)), hhead, hargs v (hj2 _ (List.mem_cons_of_mem _ List.mem_cons_self)), e1]
    simp only [Option.map_some, Option.getD_some, falsy, Bool.not_true, Bool.not_false]
    rw [V8.Misc.C39_same_at_build _ _ _ _ _ _ hid] at hh
    exact (handler_plain (by decide) hh _).2
  | extension =>
    obtain ⟨r, v, h, hh⟩ := h2 rfl
    simp only [frontOut, Option.bind_eq_some_iff, Option.map_eq_some_iff] at hf
    obtain ⟨vv, _, ci, _, rfl⟩ := hf
    have e1 : entry j "configinfo".toList = some (jsonOf (rootVal dr)) := hj1 _ List.mem_cons_self
    rw [hno _ ((not_keys .extension).1 rfl), e1]
    simp only [Option.map_none, Option.getD_none, Bool.not_true, Option.bind_some, valOf_jsonOf, Option.filter_some,
      truthy_root dr hok.rootNe, if_true]
    exact handler_ext hT hh _ _

/-! ### the product without what is nested in it -/

/-- what the build of the product itself writes: each of its files that was there, and a new `versions` or `configinfo` -/
def Written (e : Env) (c : Cls) (F : Text → Option Node) (u fu : Text) (dr : List (List Val)) (names : List Text) (m : Text) (nd : Node) : Prop :=
  (m ∈ ownNames c u fu ∧ F m = some nd) ∨
    (c ≠ .extension ∧ m = "versions".toList ∧ nd = .file (braceFile e.y.win (versionsTree e.rnd names))) ∨
    (c = .extension ∧ m = "configinfo".toList ∧ ∃ v row, getAt (rootVal dr) [0, 1] = some v ∧ getAt (rootVal dr) [1] = some (.list row) ∧
      nd = .file (braceFile e.y.win (newInfo v row)))

theorem names_written {F : Text → Option Node} {l : List Text} {m : Text} :
    m ∈ (written (l.map (fun n => (n, F n)))).map (·.1) ↔ m ∈ l ∧ (F m).isSome = true := by
  rw [List.mem_map, Option.isSome_iff_exists]
  constructor
  · rintro ⟨⟨n, nd⟩, hm, rfl⟩
    obtain ⟨h1, h2⟩ := mem_written_map.mp hm
    exact ⟨h1, nd, h2⟩
  · rintro ⟨h1, nd, h2⟩
    exact ⟨(m, nd), mem_written_map.mpr ⟨h1, h2⟩, rfl⟩

theorem written_append {α : Type} (a b : List (Place α)) : written (a ++ b) = written a ++ written b := by
  unfold written
  rw [List.filterMap_append]

theorem root_back {e : Env} {c : Cls} {ver file fu u : Text} {F : Text → Option Node} {dr dh : List (List Val)} (hok : ProductOk e c ver F file fu u dr dh)
    (hd : detect e F = some (c, ver)) (hT : ∀ u, e.types u ≠ some "ConfigurationExtension".toList) (hsame : V8.Misc.checkVersion e.tool e.tool = .ok ())
    {info : Info} {os : List Obj} {src : List (Place Bytes)} (hx : rootOut e c ver F = some (info, os, src)) :
    ∃ ps t j b, listPaths e.groups c (rootVal dh) = some ps ∧ takeLists e.x.E e.x.auto [] ps (rootVal dh) = some (t, os) ∧ info.uuid = u ∧
      V8.Misc.getEncoder (fun n => (folder src n).isSome) = some (kindOf c).name ∧ folder src (objName (kindOf c).name) = some b ∧ readFile b = some j ∧
      V8.Misc.handler e.types (!((entry j "root".toList).map falsy).getD true) (argOf j "version".toList) (argOf j "header".toList)
        (((entry j "configinfo".toList).bind valOf).filter Embed.truthy) = some (c, ver) ∧
      (∃ o, optionsIn e.o (folder src "version.bin".toList) = some o ∧ o.productVersion = versionOf e c dh ∧ textAt j "file_uuid".toList = some fu ∧
        treeAt j "header".toList = some t ∧ headerIn c o file j t = some t ∧ textAt j "uuid".toList = some u) ∧
      conOut c F = conHeader c (rootVal dh) ∧ conIn c j = conHeader c (rootVal dh) ∧
      ∀ made es, listsIn e c es t = some (rootVal dh) → ∃ files names, rootIn e c ver file made es (folder src) j = some files ∧
        (c ≠ .extension → names.Perm (made ++ files.map (·.1))) ∧
        ∀ m nd, (m, nd) ∈ files ↔ Written e c F u fu dr names m nd := by
  obtain ⟨root, fu', v, hd', h', h1, b, ps, t, g1, g2, g3, g4, g5, g6, g7, g8, g9, rfl⟩ := rootOut_some hx
  rw [need_file hok.root hok.rootNe hok.rootWf] at g1
  cases g1
  have hcon : conOut c F = conHeader c (rootVal dh) := by
    unfold conOut
    rw [need_file hok.root hok.rootNe hok.rootWf, Option.bind_some, hok.fileAt]
    simp only [strOf, Option.bind_some]
    rw [need_file hok.head hok.headNe hok.headWf, Option.bind_some]
  rw [hok.fileAt] at g2
  cases g2
  rw [need_file hok.head hok.headNe hok.headWf] at g3
  cases g3
  have hhd : headOf c dh = hd' := by unfold headOf; rw [g4]
  have hh' := header_same g5 (fun tok ht => hok.noPrefix tok (by rw [hhd]; exact ht))
  subst hh'
  rw [setAt_getAt _ _ _ g4] at g6
  cases g6
  have hu : info.uuid = u := uuid_info g5 (by rw [← hhd]; exact hok.uuid)
  obtain ⟨r1, r2, r3, r4⟩ := description_read (ver := ver) (t := t) g7 (decode_names g5)
  obtain ⟨front, other, compat, vb, parts, k1, k2, k3, k4, k5, rfl⟩ := besideOut_some g7
  rw [hu] at k2 k5
  obtain ⟨c1, c2, c3, c4⟩ := listPaths_calm g8 hok.six
  have hty : getAt t [0, 3, 0] = getAt (rootVal dh) [0, 3, 0] := takeLists_calm _ _ _ _ _ g9 (fun p hm => c2 p hm 0)
  have hcalm : ∀ r, getAt t (0 :: 3 :: 1 :: 1 :: r) = getAt (rootVal dh) (0 :: 3 :: 1 :: 1 :: r) :=
    fun r => takeLists_calm _ _ _ _ _ g9 (fun p hm => c4 p hm r)
  generalize hJ : JT.obj (written (description c ver front (other ++ compat ++ parts.1) info t)) = j at r1 r2 r3 r4
  have hjf : ∀ q ∈ front, entry j q.1 = q.2 := fun q hq => r2 q (mem_front hq)
  have hjo : ∀ q ∈ other, entry j q.1 = q.2 := fun q hq => r2 q (mem_after (List.mem_append_left _ (List.mem_append_left _ hq)))
  have hjc : ∀ q ∈ compat, entry j q.1 = q.2 := fun q hq => r2 q (mem_after (List.mem_append_left _ (List.mem_append_right _ hq)))
  have hjp : ∀ q ∈ parts.1, entry j q.1 = q.2 := fun q hq => r2 q (mem_after (List.mem_append_right _ hq))
  have hjh : entry j "header".toList = some (jsonOf t) := r2 _ (mem_head (head_uuid c info t).2)
  have hju : entry j "uuid".toList = some (.str info.uuid) := r2 _ (mem_head (head_uuid c info t).1)
  generalize hsrc : (parts.2 ++ vb ++ [(objName (kindOf c).name, some (fileOf e.x.win j))] : List (Place Bytes)) = src at r4
  have hnd : (src.map (·.1)).Nodup := by rw [r4]; exact sources_nodup c
  have hplace : ∀ q ∈ src, folder src q.1 = q.2 := fun q hq => folder_place _ _ _ hnd hq
  have hobj : folder src (objName (kindOf c).name) = some (fileOf e.x.win j) :=
    hplace (objName (kindOf c).name, some (fileOf e.x.win j)) (by rw [← hsrc]; exact List.mem_append_right _ List.mem_cons_self)
  have hSp : ∀ q ∈ parts.2, folder src q.1 = q.2 := fun q hq => hplace q (by rw [← hsrc]; exact List.mem_append_left _ (List.mem_append_left _ hq))
  have hSv : ∀ q ∈ vb, folder src q.1 = q.2 := fun q hq => hplace q (by rw [← hsrc]; exact List.mem_append_left _ (List.mem_append_right _ hq))
  obtain ⟨f1, f2, f3, f4⟩ := front_back hok k1 k2 hjf hjo
  obtain ⟨p1, p2⟩ := partsIn_of e.x.win e.y.win (kindOf c) (directives c ver) F u parts (folder src) j k5 hjp hSp hok.parts
  have hmode : ∀ slot, (kindOf c).compat = some slot → ∃ v, getAt (rootVal dh) slot = some v ∧ entry j "compatibility_version".toList = some (jsonOf v) := by
    intro slot hs
    unfold compatOut at k3
    rw [hs] at k3
    simp only [Option.map_eq_some_iff] at k3
    obtain ⟨v, hv, rfl⟩ := k3
    exact ⟨v, hv, hjc _ List.mem_cons_self⟩
  obtain ⟨o, ho, hhead, hov⟩ := headerIn_same (S := folder src) (j := j) hok g4 hcalm hmode
    (fun hc => folder_none _ _ (by rw [r4]; exact no_version_bin c hc))
    (fun hc => by
      subst hc
      simp only [versionOut, Option.map_eq_some_iff] at k4
      obtain ⟨bb, hb1, rfl⟩ := k4
      exact ⟨bb, hb1, hSv _ List.mem_cons_self⟩)
  have hjtext : textAt j "uuid".toList = some u := by
    rw [← hu]
    subst hJ
    have hju : dget _ "uuid".toList = some (.str info.uuid) := hju
    unfold textAt
    simp only [hju]
  have hjtree : treeAt j "header".toList = some t := by
    subst hJ
    have hjh : dget _ "header".toList = some (jsonOf t) := hjh
    unfold treeAt
    simp only [hjh, Option.bind_some, valOf_jsonOf]
  have hconIn : conIn c j = conHeader c (rootVal dh) := by
    unfold conIn
    rw [hjtree, Option.bind_some]
    cases c with
    | processor => unfold conHeader; rw [hcalm [1]]
    | config => rfl
    | extension => rfl
  refine ⟨ps, t, j, fileOf e.x.win j, g8, g9, hu, encoder_found r4 hobj, hobj, r1, class_back hok hd hT k1 k2 hjf hjo hjh r3 hty, ⟨o, ho, hov, f2, hjtree, hhead, hjtext⟩, hcon, hconIn, ?_⟩
  intro made es hes
  by_cases hc : c = .extension
  · subst hc
    obtain ⟨v, row, w1, w2, w3⟩ := f4 rfl
    refine ⟨written ([("configinfo".toList, some (.file (braceFile e.y.win (newInfo v row)))), (fu, F fu)] ++
      (partNames (kindOf .extension) u).map (fun n => (n, F n)) ++ (kindOf .extension).infos.map (fun n => (dot u n, F (dot u n)))) ++
      versionsIn .extension e.y.win e.rnd [], [], ?_, fun h => absurd rfl h, ?_⟩
    · unfold rootIn
      simp only [hjtext, f2, hjtree, f1, hsame, ho, hhead, hes, rootOf_rootVal, w3, p1, p2, Option.bind_some, Option.map_some, ne_eq, not_true_eq_false,
        if_false]
      rfl
    · intro m nd
      rw [show versionsIn .extension e.y.win e.rnd _ = [] from rfl, List.append_nil]
      unfold Written
      rw [← mem_written_map (F := F) (l := ownNames .extension u fu)]
      simp only [written_append, List.mem_append, ownNames, List.map_append, List.map_map]
      have hfront : (m, nd) ∈ written [("configinfo".toList, some (Node.file (braceFile e.y.win (newInfo v row)))), (fu, F fu)] ↔
          ((m, nd) ∈ written ((frontNames u fu .extension).map (fun n => (n, F n)))) ∨ (m = "configinfo".toList ∧ nd = .file (braceFile e.y.win (newInfo v row))) := by
        rw [show (frontNames u fu .extension).map (fun n => (n, F n)) = [(fu, F fu)] from rfl, mem_written, mem_written, List.mem_cons]
        simp only [List.mem_singleton, Prod.mk.injEq, Option.some.injEq]
        exact Or.comm
      have hinf : (kindOf .extension).infos.map (fun n => (dot u n, F (dot u n))) = (kindOf .extension).infos.map ((fun n => (n, F n)) ∘ dot u) := rfl
      rw [hfront, hinf]
      constructor
      · rintro (((h | h) | h) | h)
        · exact .inl (.inl (.inl h))
        · exact .inr (.inr ⟨trivial, h.1, v, row, w1, w2, h.2⟩)
        · exact .inl (.inl (.inr h))
        · exact .inl (.inr h)
      · rintro (((h | h) | h) | ⟨h, _⟩ | ⟨_, h1, v', row', h2, h3, h4⟩)
        · exact .inl (.inl (.inl h))
        · exact .inl (.inr h)
        · exact .inr h
        · exact absurd rfl h
        · rw [w1] at h2
          cases h2
          rw [w2] at h3
          cases h3
          exact .inl (.inl (.inr ⟨h1, h4⟩))
  · have w3 := f3 hc
    have hinf : (kindOf c).infos = [] := by cases c <;> first | rfl | exact absurd rfl hc
    have hver : ∀ N, versionsIn c e.y.win e.rnd N = [("versions".toList, .file (braceFile e.y.win (versionsTree e.rnd N)))] := by
      intro N
      cases c <;> first | rfl | exact absurd rfl hc
    refine ⟨written ((frontNames u fu c).map (fun n => (n, F n)) ++ (partNames (kindOf c) u).map (fun n => (n, F n)) ++
      (kindOf c).infos.map (fun n => (dot u n, F (dot u n)))) ++ versionsIn c e.y.win e.rnd (made ++ (written ((frontNames u fu c).map (fun n => (n, F n)))).map (·.1) ++
      ["versions".toList] ++ (written ((partNames (kindOf c) u).map (fun n => (n, F n)))).map (·.1)),
      made ++ (written ((frontNames u fu c).map (fun n => (n, F n)))).map (·.1) ++ ["versions".toList] ++ (written ((partNames (kindOf c) u).map (fun n => (n, F n)))).map (·.1), ?_, fun _ => ?_, ?_⟩
    · unfold rootIn
      simp only [hjtext, f2, hjtree, f1, hsame, ho, hhead, hes, rootOf_rootVal, w3, p1, p2, Option.bind_some, Option.map_some, ne_eq, not_true_eq_false,
        if_false]
    · rw [hver, hinf]
      simp only [List.map_nil, List.append_nil, written_append, List.map_append, List.map_cons, List.append_assoc]
      exact (((List.perm_append_comm (l₁ := ["versions".toList]) (l₂ := (written ((partNames (kindOf c) u).map (fun n => (n, F n)))).map (·.1))).append_left _).append_left _)
    · intro m nd
      rw [hver, hinf]
      unfold Written
      rw [← mem_written_map (F := F) (l := ownNames c u fu)]
      simp only [ownNames, hinf, List.map_nil, List.append_nil, List.map_append, List.mem_append, written_append, List.mem_singleton, Prod.mk.injEq]
      constructor
      · rintro (h | h)
        · exact .inl h
        · exact .inr (.inl ⟨hc, h.1, h.2⟩)
      · rintro (h | ⟨_, h1, h2⟩ | ⟨h, _⟩)
        · exact .inl h
        · exact .inr ⟨h1, h2⟩
        · exact absurd h hc

/-! ### C62 -/

/-- `ty v` stands in a list of the product -/
def InProduct (e : Env) (c : Cls) (dh : List (List Val)) (ty : Text) (v : Val) : Prop :=
  ∃ ps, listPaths e.groups c (rootVal dh) = some ps ∧ (ty, v) ∈ listed e.x.E (rootVal dh) ps

/-- the files of what is nested in the product, at any depth -/
def NestedNames (C : Text → Option Class) (e : Env) (c : Cls) (F : Text → Option Node) (dh : List (List Val)) (m : Text) : Prop :=
  ∃ ty v, InProduct e c dh ty v ∧ (m ∈ own C ty v ∨ ∃ con' ty' v', Inside C e.x.E F ty v con' ty' v' ∧ m ∈ own C ty' v')

/-- what is asked of the lists of the product and of everything nested in it, with and without auto_include -/
structure InnerOk (types : List (Text × Text)) (C : Text → Option Class) (g : V8.FormObj.Lim) (e : Env) (c : Cls) (ver : Text) (F : Text → Option Node) (nm : Val → Text)
    (dh : List (List Val)) : Prop where
  lists : ∀ ps, listPaths e.groups c (rootVal dh) = some ps → ListsFit e.x.E (rootVal dh) ps
  fit : ∀ ty v, InProduct e c dh ty v → Fit C g e.x (bldOf e c dh) F (conHeader c (rootVal dh)) (kindOf c).name ty v
  deep : ∀ ty v con' ty' v', InProduct e c dh ty v → Inside C e.x.E F ty v con' ty' v' → Fit C g e.x (bldOf e c dh) F con' ['/'] ty' v'
  /-- without auto_include an object kept inside the file of the product is not put back -/
  plain : e.x.auto = false → ∀ ty v, InProduct e c dh ty v → ∃ s, v = .str s
  order : e.x.auto = true → ∀ ps, listPaths e.groups c (rootVal dh) = some ps → ∀ p ∈ ps, ∀ s ∈ slotsAt (rootVal dh) p, NameOrder nm s
  auto : e.x.auto = true → (types.map (·.2)).Nodup ∧ ∀ ty v, InProduct e c dh ty v → AutoOk types C g e.x (bldOf e c dh) ver F nm ty v ∧
    ∀ con' ty' v', Inside C e.x.E F ty v con' ty' v' → AutoOk types C g e.x (bldOf e c dh) ver F nm ty' v'

theorem extractTree_root {K : Text → Option Handler} {F : Text → Option Node} {n : Nat} {con : Option Text} {ty : Text} {v : Val} {r : Info × Dir}
    (h : extractTree K F n con ty v = some r) : ∃ k q, K ty = some k ∧ k.out con F v = some q ∧ r.1 = q.1 := by
  cases n with
  | zero => rw [extractTree] at h; cases h
  | succ n =>
    rw [extractTree] at h
    simp only [Option.bind_eq_some_iff] at h
    obtain ⟨k, hk, q, hq, subs, _, h⟩ := h
    refine ⟨k, q, hk, hq, ?_⟩
    by_cases hn : (subs.map (fun s => (s.1, s.2.1))).Nodup
    · rw [if_pos hn] at h; cases h; rfl
    · rw [if_neg hn] at h; cases h

/-- the source folder of a product holds the same as another: the same files, and the folders of the nested objects hold the same (`Like`), listed in
any order -/
def LikeRoot (K : Text → Option Handler) (R : Bool → (Text → Option Node) → (Text → Option Node) → Prop) : Dir → Dir → Prop
  | .mk src subs, dir' => ∃ src' subs', dir' = .mk src' subs' ∧ fileIn (folder src') = fileIn (folder src) ∧ LikeSubs K R subs subs'

theorem LikeRoot.refl (K : Text → Option Handler) (R : Bool → (Text → Option Node) → (Text → Option Node) → Prop) (hR : ∀ k S, R k S S) : ∀ d, LikeRoot K R d d
  | .mk src subs => ⟨src, subs, rfl, rfl, LikeSubs.refl K R hR subs⟩

theorem handlers_kids (C : Text → Option Class) (g : V8.FormObj.Lim) (x : Ext) (y y' : Bld) (ver : Text) :
    ∀ ty h, handlers C g x y ver ty = some h → ∃ h', handlers C g x y' ver ty = some h' ∧ h'.kids = h.kids := by
  intro ty h hk
  unfold handlers at hk ⊢
  rw [Option.map_eq_some_iff] at hk
  obtain ⟨c, hc, rfl⟩ := hk
  refine ⟨_, by rw [hc]; rfl, ?_⟩
  cases c <;> rfl

theorem _root_.V8.Tree.LikeSubs.congr {K K' : Text → Option Handler} {R : Bool → (Text → Option Node) → (Text → Option Node) → Prop}
    (hK : ∀ ty h, K ty = some h → ∃ h', K' ty = some h' ∧ h'.kids = h.kids)
    (hK' : ∀ ty h, K' ty = some h → ∃ h', K ty = some h' ∧ h'.kids = h.kids) {s s' : Subs} (h : LikeSubs K R s s') : LikeSubs K' R s s' := by
  obtain ⟨l, l', h1, h2, h3, h4⟩ := h
  exact ⟨l, l', h1, h2, h3, fun q hq => (h4 q hq).congr hK hK'⟩

/-- C62 for any listing of the folders, and for files the classes read like the ones that were written (`LikeRoot`): see C62_product. -/
theorem C62_listed (types : List (Text × Text)) (C : Text → Option Class) (g : V8.FormObj.Lim) (e : Env) (c : Cls) (ver : Text) (F : Text → Option Node)
    (ord : Text → List Entry → List Entry) (shuf : List Text → List Text) (nm : Val → Text) (n : Nat) (info : Info) (dir dir' : Dir) (file fu u : Text)
    (dr dh : List (List Val)) (hC : ClassesOk C) (hE : e.x.E = envOf types C) (hy : e.y.E = e.x.E) (hp : e.y.p = e.x.p) (ha : e.y.auto = e.x.auto)
    (hv0 : e.x.valid [] = false) (hT : ∀ u, e.types u ≠ some "ConfigurationExtension".toList) (hsame : V8.Misc.checkVersion e.tool e.tool = .ok ())
    (hord : ∀ id l, (ord id l).Perm l) (hshuf : ∀ l, (shuf l).Perm l) (hd : detect e F = some (c, ver))
    (hx : extractProduct e (handlers C g e.x e.y ver) c ver F n = some (info, dir)) (hok : ProductOk e c ver F file fu u dr dh)
    (hin : InnerOk types C g e c ver F nm dh) (R : Bool → (Text → Option Node) → (Text → Option Node) → Prop)
    (hR : ∀ p, Steady (handlers C g e.x { e.y with prod := p } ver) F R) (hlike : LikeRoot (handlers C g e.x e.y ver) R dir dir') :
    ∃ files names, buildProduct e (fun v p => handlers C g e.x { e.y with prod := p } v) ord shuf file dir' = some (c, files) ∧
      (c ≠ .extension → names.Perm (files.map (·.1))) ∧
      ∀ m nd, (m, nd) ∈ files ↔ (NestedNames C e c F dh m ∧ F m = some nd) ∨ Written e c F u fu dr names m nd := by
  unfold extractProduct at hx
  simp only [Option.bind_eq_some_iff] at hx
  obtain ⟨⟨info', os, src⟩, hroot, subs, hsubs, hx⟩ := hx
  rw [show extractTree (handlers C g e.x e.y ver) F n = extractTree (handlers C g e.x (bldOf e c dh) ver) F n from
    funext fun co => funext fun a => funext fun b => extractTree_congr (handlers_out C g e.x e.y (bldOf e c dh) ver) n co a b] at hsubs
  by_cases hnod : (subs.map (fun s => (s.1, s.2.1))).Nodup
  case neg => rw [if_neg hnod] at hx; cases hx
  rw [if_pos hnod] at hx
  cases hx
  obtain ⟨src', subs', rfl, hsrc, hls⟩ := hlike
  replace hls := hls.congr (K' := handlers C g e.x (bldOf e c dh) ver) (handlers_kids C g e.x e.y (bldOf e c dh) ver) (handlers_kids C g e.x (bldOf e c dh) e.y ver)
  obtain ⟨ps, t, j, b, hps, ht, hu, b1, b2, b3, b4, ⟨o, b6, b7, _⟩, b8, b9, b5⟩ := root_back hok hd hT hsame hroot
  rw [b8] at hsubs
  have hfit := hin.lists ps hps
  have hapart := listPaths_apart hps
  have hlisted := takeLists_listed _ _ _ _ _ ht hfit.tidy hfit.count hapart
  have hkid : ∀ o ∈ os, InProduct e c dh o.ty o.orig := by
    intro o ho
    refine ⟨ps, hps, ?_⟩
    rw [← hlisted]
    exact List.mem_map.mpr ⟨o, ho, rfl⟩
  have hkid' : ∀ ty v, InProduct e c dh ty v → ∃ o ∈ os, o.ty = ty ∧ o.orig = v := by
    rintro ty v ⟨ps', hps', hm⟩
    rw [hps] at hps'
    cases hps'
    rw [← hlisted, List.mem_map] at hm
    obtain ⟨o, ho, he⟩ := hm
    cases he
    exact ⟨o, ho, rfl, rfl⟩
  obtain ⟨es, kf, k1, k2, k3, k4, _, k6⟩ := kids_back (handlers C g e.x (bldOf e c dh) ver) ord (conHeader c (rootVal dh)) (kindOf c).name
    (extractTree (handlers C g e.x (bldOf e c dh) ver) F n (conHeader c (rootVal dh))) R
    (fun ty v p => (p.1 ∈ own C ty v ∨ ∃ con' ty' v', Inside C e.x.E F ty v con' ty' v' ∧ p.1 ∈ own C ty' v') ∧ F p.1 = some p.2) os subs subs' hsubs hls
    (fun o ho oi od od' hod hlk => by
      have h1 := hkid o ho
      obtain ⟨fs, g1, g2⟩ := C61_listed types C g e.x (bldOf e c dh) ver F ord nm n (conHeader c (rootVal dh)) o.ty o.orig (kindOf c).name oi od od' R (hR _) hlk hC hE hy hp hv0 hord hod (hin.fit _ _ h1)
        (fun con' ty' v' hi => hin.deep _ _ _ _ _ h1 hi) (fun hau => ⟨(hin.auto hau).1, (hin.auto hau).2 _ _ h1⟩)
      exact ⟨fs, g1, fun p => g2 p.1 p.2⟩)
  have hes : listsIn e c (ord (kindOf c).name es) t = some (rootVal dh) := by
    unfold listsIn
    cases hau : e.x.auto with
    | false =>
      rw [hau] at ht
      rw [if_pos (.inr (by rw [ha, hau]))]
      rw [takeLists_outside _ _ _ _ _ ht (fun o ho => hin.plain hau _ _ (hkid o ho))]
    | true =>
      rw [hau] at ht
      by_cases hemp : ord (kindOf c).name es = []
      · rw [if_pos (.inl hemp)]
        have hes0 : es = [] := by
          have := hord (kindOf c).name es
          rw [hemp] at this
          exact this.nil_eq.symm
        have hos0 : os = [] := by
          rw [hes0] at k6
          exact List.map_eq_nil_iff.mp k6.nil_eq.symm
        rw [hos0] at ht
        rw [takeLists_auto_none _ _ _ _ ht hfit.tidy hapart]
      · rw [if_neg (by rw [ha, hau]; simp [hemp]), listPaths_kept hps hok.six ht, Option.bind_some, hy]
        refine putLists_takeLists (nm := nm) ?_ ?_ ?_ ps [] (rootVal dh) t os ht hfit.tidy (hin.order hau ps hps) hapart ?_
        · intro en hen
          obtain ⟨o, _, r, hr, rfl⟩ := k2 en ((hord _ _).mem_iff.mp hen)
          obtain ⟨k, q, hk, _⟩ := extractTree_root hr
          rw [hE]
          exact handler_real (g := g) (x := e.x) (y := bldOf e c dh) (ver := ver) (by simp only; rw [hk]; rfl)
        · rw [hE]
          exact uuidOf_nameOf (hin.auto hau).1
        · intro en hen
          obtain ⟨o, ho, r, hr, rfl⟩ := k2 en ((hord _ _).mem_iff.mp hen)
          obtain ⟨k, q, hk, hq, he⟩ := extractTree_root hr
          simp only [he]
          exact ((hin.auto hau).2 _ _ (hkid o ho)).1.name k _ q hk hq
        · intro o _
          have hperm : ((ord (kindOf c).name es).map (fun e => (e.ty, e.data))).Perm (os.map (fun o => (o.ty, o.orig))) :=
            ((hord _ _).map _).trans k6
          have h1 := (hperm.filter (fun p => decide (p.1 = o.ty))).map (·.2)
          rw [List.filter_map, List.filter_map, List.map_map, List.map_map] at h1
          exact h1
  obtain ⟨rf, names, w1, w2, w3⟩ := b5 (shuf (kf.map (·.1))) (ord (kindOf c).name es) hes
  have hnested : ∀ m nd, (m, nd) ∈ kf ↔ NestedNames C e c F dh m ∧ F m = some nd := by
    intro m nd
    rw [k4]
    constructor
    · rintro ⟨o, ho, h1, h2⟩
      exact ⟨⟨o.ty, o.orig, hkid o ho, h1⟩, h2⟩
    · rintro ⟨⟨ty, v, h1, h2⟩, h3⟩
      obtain ⟨o, ho, rfl, rfl⟩ := hkid' ty v h1
      exact ⟨o, ho, h2, h3⟩
  refine ⟨kf ++ rf, names, ?_, ?_, ?_⟩
  · rw [buildProduct, hsrc, fileIn_folder]
    unfold buildFrom
    rw [show (bldOf e c dh) = { e.y with prod := o.productVersion } from by unfold bldOf; rw [b7]] at k1
    simp only [b1, b2, b3, b4, b6, b9, k1, w1, Option.bind_some, Option.map_some]
  · intro hc
    rw [List.map_append]
    exact (w2 hc).trans ((hshuf _).append_right _)
  · intro m nd
    rw [List.mem_append, hnested, w3]

/-- **C62.**  A whole product - configuration, extension, external data processor or report - with everything nested in it at any depth, whatever the
order in which the workers finish: if the product and every nested object are in the layout of the serializer and fit for themselves, the build of
the extracted sources chooses the class that took it apart and writes exactly the files of the container that belong to the product and to its
nested objects, each with its content; besides them only a new `versions`, which names exactly the files that were built, or, for an extension, a new
`configinfo` with the version row and the copyinfo of the old one. -/
theorem C62_product (types : List (Text × Text)) (C : Text → Option Class) (g : V8.FormObj.Lim) (e : Env) (c : Cls) (ver : Text) (F : Text → Option Node)
    (ord : Text → List Entry → List Entry) (shuf : List Text → List Text) (nm : Val → Text) (n : Nat) (info : Info) (dir : Dir) (file fu u : Text)
    (dr dh : List (List Val)) (hC : ClassesOk C) (hE : e.x.E = envOf types C) (hy : e.y.E = e.x.E) (hp : e.y.p = e.x.p) (ha : e.y.auto = e.x.auto)
    (hv0 : e.x.valid [] = false) (hT : ∀ u, e.types u ≠ some "ConfigurationExtension".toList) (hsame : V8.Misc.checkVersion e.tool e.tool = .ok ())
    (hord : ∀ id l, (ord id l).Perm l) (hshuf : ∀ l, (shuf l).Perm l) (hd : detect e F = some (c, ver))
    (hx : extractProduct e (handlers C g e.x e.y ver) c ver F n = some (info, dir)) (hok : ProductOk e c ver F file fu u dr dh)
    (hin : InnerOk types C g e c ver F nm dh) :
    ∃ files names, buildProduct e (fun v p => handlers C g e.x { e.y with prod := p } v) ord shuf file dir = some (c, files) ∧
      (c ≠ .extension → names.Perm (files.map (·.1))) ∧
      ∀ m nd, (m, nd) ∈ files ↔ (NestedNames C e c F dh m ∧ F m = some nd) ∨ Written e c F u fu dr names m nd :=
  C62_listed types C g e c ver F ord shuf nm n info dir dir file fu u dr dh hC hE hy hp ha hv0 hT hsame hord hshuf hd hx hok hin (fun _ S S' => S' = S)
    (fun _ => steady_eq _ _) (LikeRoot.refl _ (fun _ S S' => S' = S) (fun _ _ => rfl) dir)

end V8.Root
