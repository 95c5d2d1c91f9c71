import Verif.Props.DescribeRoot
import Verif.Props.FoldersRound
/-
C83: extraction, an edit in the description of an object, build.
-/
namespace V8.Describe
open V8.Brace V8.Enc V8.JsonText V8.Header V8.Store V8.Tree V8.Module V8.Product
open V8.Nested hiding Handler Env
open V8.Object hiding Cls
open V8.Misc (Cls)
open V8.Root (Apart rootIn listsIn listPaths conIn)
open V8.Edit (EditedIn EditedAt out_recorded kids_from kindIn)
open V8.Folders (SourcesOf ListsReady GrownBy OneMore Comes ItsFiles extracted object_of lists_ready type_found names_middle some_objects subs_come lists_back product_grown)

theorem sameBut_name (ver : Option Text) (extra : List (Text × JT)) (info : Info) (n : Text) (v : Val) : SameBut ["name".toList] (objJson ver extra info v) (objJson ver extra { info with name := n } v) := by
  intro k hk
  have h : "name".toList ≠ k := fun h => hk (by rw [h]; exact List.mem_cons_self)
  unfold objJson entry
  simp only [List.cons_append]
  rw [dget_miss _ _ _ _ h, dget_miss _ _ _ _ h]

theorem sameBut_header (ver : Option Text) (extra : List (Text × JT)) (info : Info) (v w : Val) : SameBut ["header".toList] (objJson ver extra info v) (objJson ver extra info w) := by
  intro k hk
  have h : "header".toList ≠ k := fun h => hk (by rw [h]; exact List.mem_cons_self)
  unfold objJson entry
  simp only [List.cons_append]
  by_cases h1 : "name".toList = k
  · rw [← h1, dget_hit, dget_hit]
  by_cases h2 : "name2".toList = k
  · rw [dget_miss _ _ _ _ h1, dget_miss _ _ _ _ h1, ← h2, dget_hit, dget_hit]
  by_cases h3 : "comment".toList = k
  · rw [dget_miss _ _ _ _ h1, dget_miss _ _ _ _ h1, dget_miss _ _ _ _ h2, dget_miss _ _ _ _ h2, ← h3, dget_hit, dget_hit]
  rw [dget_miss _ _ _ _ h1, dget_miss _ _ _ _ h1, dget_miss _ _ _ _ h2, dget_miss _ _ _ _ h2, dget_miss _ _ _ _ h3, dget_miss _ _ _ _ h3, dget_miss _ _ _ _ h, dget_miss _ _ _ _ h]

/-- The description extraction writes can be edited: there is a file for every other name and for all other raw data. -/
theorem describable {x : Ext} {k : Kind} {ver : Option Text} {F : Text → Option Node} {u : Text} {info : Info} {os : List Obj} {src : List (Place Bytes)}
    (hk : Good k) (hx : extractAll x k ver F u = some (info, os, src)) :
    ∃ bi jid bo j root, folder src (idName k.name) = some bi ∧ readFile bi = some jid ∧ textAt jid "uuid".toList = some info.uuid ∧ folder src (objName k.name) = some bo ∧ readFile bo = some j ∧
      textAt j "name".toList = some info.name ∧ treeAt j "header".toList = some root ∧
      (∀ n, ∃ b j', readFile b = some j' ∧ SameBut ["name".toList] j j' ∧ entry j' "name".toList = some (.str n)) ∧
      (∀ v, ∃ b j', readFile b = some j' ∧ SameBut ["header".toList] j j' ∧ treeAt j' "header".toList = some v) ∧
      (k.cls.ids = [] → k.cls.includes = false → ∃ b d, F u = some (.file b) ∧ braceRead b = some d ∧ ∀ q, Apart k.cls.path q → getAt root q = getAt (rootVal d) q) := by
  unfold extractAll at hx
  cases hF : F u with
  | none => rw [hF] at hx; cases hx
  | some nd =>
  cases nd with
  | dir f => rw [hF] at hx; cases hx
  | file b =>
  rw [hF] at hx
  simp only [Option.bind_eq_some_iff, Option.map_eq_some_iff] at hx
  obtain ⟨r, hr, p, hpo, q, hq, he⟩ := hx
  obtain ⟨qi, qo, qs⟩ := q
  simp only [Prod.mk.injEq] at he
  obtain ⟨rfl, rfl, rfl⟩ := he
  obtain ⟨a, b', c, i, ha, hb, hc, hi, rfl⟩ := partsOut_some hpo
  obtain ⟨ka, na, wa⟩ := helpOut_shape ha
  obtain ⟨kc, nc, wc⟩ := codesOut_shape hc
  obtain ⟨ki, wi⟩ := infoOut_shape hi
  have nb := blobsOut_shape hb
  have hkeys : (a.1 ++ c.1 ++ i).map (·.1) = keys k := by
    unfold keys
    rw [List.map_append, List.map_append, ka, kc, ki]
  have hex := extra_ok (a.1 ++ c.1 ++ i) (by rw [hkeys]; exact hk.keys) (by
    intro q hq
    exact hk.own q.1 (by rw [← hkeys]; exact List.mem_map.mpr ⟨q, hq, rfl⟩)) (by
    intro n v hm
    rcases List.mem_append.mp hm with hm | hm
    · rcases List.mem_append.mp hm with hm | hm
      · exact wa n v hm
      · exact wc n v hm
    · exact wi n v hm)
  obtain ⟨d, hd, h', r1, r2, hbr, hgp, hh, hs, ht, ids, r3, hi3, rfl⟩ := extract_some hq
  have hnames := hideIds_names hk.ids hi3
  have hnd : ((a.2 ++ b' ++ c.2 ++ [(idName k.name, some (fileOf x.win (idJson qi ids))),
      (objName k.name, some (fileOf x.win (objJson ver (written (a.1 ++ c.1 ++ i)) qi r3)))]).map (·.1)).Nodup := by
    have e := hk.sources
    unfold sources at e
    rw [List.map_append, List.map_append, List.map_append, na, nb, nc]
    exact e
  have hwf : ∀ qi' : Info, qi'.name2 = qi.name2 → ∀ v, readFile (fileOf x.win (objJson ver (written (a.1 ++ c.1 ++ i)) qi' v)) = some (objJson ver (written (a.1 ++ c.1 ++ i)) qi' v) := by
    intro qi' h v
    exact C58_round_trip _ _ (objJson_wf ver _ qi' v hex (by rw [h]; exact decode_names hh))
  refine ⟨_, _, _, objJson ver (written (a.1 ++ c.1 ++ i)) qi r3, r3, folder_place _ (idName k.name) (some _) hnd (List.mem_append_right _ List.mem_cons_self),
    C58_round_trip _ _ (idJson_wf qi ids hnames.1 hnames.2), textAt_id qi ids, folder_place _ (objName k.name) (some _) hnd
    (List.mem_append_right _ (List.mem_cons_of_mem _ List.mem_cons_self)), hwf qi rfl r3, ?_, treeAt_header _ _ _ _, fun n => ?_, fun v => ?_, fun hids hinc => ⟨b, d, rfl, hbr, fun q hq => ?_⟩⟩
  · rw [textAt_entry]
    unfold objJson entry
    simp only [List.cons_append]
    rw [dget_hit]
  · refine ⟨_, _, hwf { qi with name := n } rfl r3, sameBut_name _ _ _ _ _, ?_⟩
    unfold objJson entry
    simp only [List.cons_append]
    rw [dget_hit]
  · exact ⟨_, _, hwf qi rfl v, sameBut_header _ _ _ _ _, treeAt_header _ _ _ _⟩
  · have e1 : r2 = r1 := by
      unfold takeIncludes at ht
      rw [if_neg (by rw [hinc]; decide)] at ht
      cases ht
      rfl
    have e2 : r3 = r2 := by
      unfold hideIds at hi3
      rw [if_pos (.inl hids)] at hi3
      cases hi3
      rfl
    rw [e2, e1, getAt_frame _ _ _ _ _ hs hq.1 hq.2]

/-- in extracted sources every object has its JSON files -/
theorem edited_extracted {C : Text → Option Class} (hC : ClassesOk C) {g : V8.FormObj.Lim} {x : Ext} {y : Bld} {ver : Text} {F : Text → Option Node}
    {R : Text → (Text → Option Node) → (Text → Option Node) → Prop} {ty : Text} {d d' : V8.Tree.Dir} (he : EditedAt R ty d d') :
    ∀ (n : Nat) (con : Option Text) (v : Val) (info : Info), extractTree (handlers C g x y ver) F n con ty v = some (info, d) → EditedIn C R ty d d' := by
  induction he with
  | here h => intro _ _ _ _ _; exact .here h
  | @deeper ty files l r sty snm d d' hd ih =>
    intro n con v info hx
    cases n with
    | zero => rw [extractTree] at hx; cases hx
    | succ n =>
    rw [extractTree] at hx
    simp only [Option.bind_eq_some_iff] at hx
    obtain ⟨h, hK, ⟨info', os, src⟩, ho, subs0, hs, hx⟩ := hx
    by_cases hnod : (subs0.map (fun s => (s.1, s.2.1))).Nodup
    case neg => rw [if_neg hnod] at hx; cases hx
    rw [if_pos hnod] at hx
    simp only [Option.some.injEq, Prod.mk.injEq, V8.Tree.Dir.mk.injEq] at hx
    obtain ⟨rfl, rfl, hx⟩ := hx
    cases ofList_inj hx
    obtain ⟨o, ho', info2, hty, hx2⟩ := kids_from hs (sty, snm, d) (List.mem_append_right _ List.mem_cons_self)
    cases hty
    unfold handlers at hK
    rw [Option.map_eq_some_iff] at hK
    obtain ⟨cl, hcl, rfl⟩ := hK
    obtain ⟨h1, _⟩ := out_recorded hC hcl ho
    obtain ⟨k, hki, hinc, hbi, hbo⟩ := h1 (List.ne_nil_of_mem ho')
    exact .deeper hcl hki hinc hbi hbo (ih _ _ _ _ hx2)

/-- **C83, a value of the header between extraction and build.**  A product is extracted (C62), in the description of an object at any depth a value of its raw data is replaced that the build does not fill
itself, and the sources are built.  The build succeeds, and what it writes is the original product, apart from the file of this object, which has the new value at this place and its old data elsewhere. -/
theorem C83_extract_header_build (types : List (Text × Text)) (C : Text → Option Class) (g : V8.FormObj.Lim) (e : V8.Root.Env) (c : Cls) (ver : Text) (F : Text → Option Node)
    (ord : Text → List Entry → List Entry) (shuf : List Text → List Text) (nm : Val → Text) (n : Nat) (info : Info) (src : List (Place Node)) (l r : List (Text × Text × V8.Tree.Dir))
    (sty snm : Text) (d d' : V8.Tree.Dir) (file fu ur : Text) (dr dh : List (List Val)) (u : Text) (q : List Nat) (w : Val)
    (hC : ClassesOk C) (hE : e.x.E = envOf types C) (hy : e.y.E = e.x.E) (hp : e.y.p = e.x.p) (ha : e.y.auto = e.x.auto)
    (hv0 : e.x.valid [] = false) (hT : ∀ u, e.types u ≠ some "ConfigurationExtension".toList) (hsame : V8.Misc.checkVersion e.tool e.tool = .ok ())
    (hord : ∀ id l, (ord id l).Perm l) (hshuf : ∀ l, (shuf l).Perm l) (hd : V8.Root.detect e F = some (c, ver))
    (hx : V8.Root.extractProduct e (handlers C g e.x e.y ver) c ver F n = some (info, .mk src (.ofList (l ++ (sty, snm, d) :: r)))) (hok : V8.Root.ProductOk e c ver F file fu ur dr dh)
    (hin : V8.Root.InnerOk types C g e c ver F nm dh) (he : EditedAt (HeaderEdit C u q w) sty d d') :
    ∃ files files' names,
      V8.Root.buildProduct e (fun v p => handlers C g e.x { e.y with prod := p } v) ord shuf file (.mk src (.ofList (l ++ (sty, snm, d) :: r))) = some (c, files) ∧
      V8.Root.buildProduct e (fun v p => handlers C g e.x { e.y with prod := p } v) ord shuf file (.mk src (.ofList (l ++ (sty, snm, d') :: r))) = some (c, files') ∧
      OnlyValue e.y.win u q w files files' ∧ (c ≠ .extension → names.Perm (files.map (·.1))) ∧
      ∀ x nd, (x, nd) ∈ files ↔ (V8.Root.NestedNames C e c F dh x ∧ F x = some nd) ∨ V8.Root.Written e c F ur fu dr names x nd := by
  obtain ⟨files, names, h1, h2, h3⟩ := V8.Root.C62_product types C g e c ver F ord shuf nm n info _ file fu ur dr dh hC hE hy hp ha hv0 hT hsame hord hshuf hd hx hok hin
  unfold V8.Root.extractProduct at hx
  simp only [Option.bind_eq_some_iff] at hx
  obtain ⟨⟨info', os, src0⟩, hroot, subs0, hs, hx⟩ := hx
  by_cases hnod : (subs0.map (fun s => (s.1, s.2.1))).Nodup
  case neg => rw [if_neg hnod] at hx; cases hx
  rw [if_pos hnod] at hx
  simp only [Option.some.injEq, Prod.mk.injEq, V8.Tree.Dir.mk.injEq] at hx
  obtain ⟨rfl, rfl, hx⟩ := hx
  cases ofList_inj hx
  obtain ⟨o, _, info2, hty, hx2⟩ := kids_from hs (sty, snm, d) (List.mem_append_right _ List.mem_cons_self)
  cases hty
  obtain ⟨files', d1, d2⟩ := C83_product_header C hC g e ord shuf file (nodes src0) l r _ snm d d' u q w (edited_extracted hC he _ _ _ _ hx2) c files h1
  exact ⟨files, files', names, h1, d1, d2, h2, h3⟩

/-- **C83, the name between extraction and build.**  A product is extracted without auto_include, the name in the description of one of its objects is replaced by `n`, and the sources are built.  The build
succeeds, and what it writes is the original product, apart from the file of this object, which - if it is not borrowed - has the new name, with the prefix, and its old data elsewhere. -/
theorem C83_extract_rename_build (types : List (Text × Text)) (C : Text → Option Class) (g : V8.FormObj.Lim) (e : V8.Root.Env) (c : Cls) (ver : Text) (F : Text → Option Node)
    (ord : Text → List Entry → List Entry) (shuf : List Text → List Text) (nm : Val → Text) (m : Nat) (info : Info) (src : List (Place Node)) (l r : List (Text × Text × V8.Tree.Dir))
    (sty snm : Text) (fs fs' : List (Place Node)) (subs : Subs) (k : Kind) (file fu ur : Text) (dr dh : List (List Val)) (u n : Text)
    (hC : ClassesOk C) (hE : e.x.E = envOf types C) (hy : e.y.E = e.x.E) (hp : e.y.p = e.x.p) (hau : e.x.auto = false) (ha : e.y.auto = e.x.auto)
    (hv0 : e.x.valid [] = false) (hT : ∀ u, e.types u ≠ some "ConfigurationExtension".toList) (hsame : V8.Misc.checkVersion e.tool e.tool = .ok ())
    (hord : ∀ id l, (ord id l).Perm l) (hshuf : ∀ l, (shuf l).Perm l) (hd : V8.Root.detect e F = some (c, ver))
    (hx : V8.Root.extractProduct e (handlers C g e.x e.y ver) c ver F m = some (info, .mk src (.ofList (l ++ (sty, snm, .mk fs subs) :: r)))) (hok : V8.Root.ProductOk e c ver F file fu ur dr dh)
    (hin : V8.Root.InnerOk types C g e c ver F nm dh) (hcl : C sty = some (.file k)) (he : NameEdit k u n (folder fs) (folder fs')) :
    ∃ files files' names,
      V8.Root.buildProduct e (fun v p => handlers C g e.x { e.y with prod := p } v) ord shuf file (.mk src (.ofList (l ++ (sty, snm, .mk fs subs) :: r))) = some (c, files) ∧
      V8.Root.buildProduct e (fun v p => handlers C g e.x { e.y with prod := p } v) ord shuf file (.mk src (.ofList (l ++ (sty, snm, .mk fs' subs) :: r))) = some (c, files') ∧
      OnlyName e.y.win u k.cls.path (e.y.p ++ n) files files' ∧ (c ≠ .extension → names.Perm (files.map (·.1))) ∧
      ∀ x nd, (x, nd) ∈ files ↔ (V8.Root.NestedNames C e c F dh x ∧ F x = some nd) ∨ V8.Root.Written e c F ur fu dr names x nd := by
  obtain ⟨files, names, h1, h2, h3⟩ := V8.Root.C62_product types C g e c ver F ord shuf nm m info _ file fu ur dr dh hC hE hy hp ha hv0 hT hsame hord hshuf hd hx hok hin
  obtain ⟨files', d1, d2⟩ := C83_product_name C hC g e ord shuf file src l r sty snm fs fs' subs k u n hcl he (by rw [ha, hau]) c files h1
  exact ⟨files, files', names, h1, d1, d2, h2, h3⟩

/-- **C83, the name with auto_include.**  The same with auto_include, for an object that is not the only one; `n` is no name of another object of its type.  The product written is `files'`; both it and the
original `files` are one and the same product `base` with the files of this object added and its identifier put into the list of its type once. -/
theorem C83_extract_rename_build_auto (types : List (Text × Text)) (C : Text → Option Class) (g : V8.FormObj.Lim) (e : V8.Root.Env) (c : Cls) (ver : Text) (F : Text → Option Node)
    (ord : Text → List Entry → List Entry) (shuf : List Text → List Text) (nm : Val → Text) (m : Nat) (info : Info) (src : List (Place Node)) (l r : List (Text × Text × V8.Tree.Dir))
    (sty snm : Text) (fs fs' : List (Place Node)) (subs : Subs) (k : Kind) (file fu ur : Text) (dr dh : List (List Val)) (u n : Text)
    (hC : ClassesOk C) (hE : e.x.E = envOf types C) (hy : e.y.E = e.x.E) (hp : e.y.p = e.x.p) (hau : e.x.auto = true) (ha : e.y.auto = e.x.auto)
    (hv0 : e.x.valid [] = false) (hT : ∀ u, e.types u ≠ some "ConfigurationExtension".toList) (hsame : V8.Misc.checkVersion e.tool e.tool = .ok ())
    (hord : ∀ id l, (ord id l).Perm l) (hshuf : ∀ l, (shuf l).Perm l) (hd : V8.Root.detect e F = some (c, ver))
    (hx : V8.Root.extractProduct e (handlers C g e.x e.y ver) c ver F m = some (info, .mk src (.ofList (l ++ (sty, snm, .mk fs subs) :: r)))) (hok : V8.Root.ProductOk e c ver F file fu ur dr dh)
    (hin : V8.Root.InnerOk types C g e c ver F nm dh) (hcl : C sty = some (.file k)) (he : NameEdit k u n (folder fs) (folder fs'))
    (hne : l ++ r ≠ []) (hnew : ∀ q ∈ l ++ r, q.1 = sty → q.2.1 ≠ n) :
    ∃ files files' base fX fX' d0 d' U v,
      V8.Root.buildProduct e (fun v p => handlers C g e.x { e.y with prod := p } v) ord shuf file (.mk src (.ofList (l ++ (sty, snm, .mk fs subs) :: r))) = some (c, files) ∧
      V8.Root.buildProduct e (fun v p => handlers C g e.x { e.y with prod := p } v) ord shuf file (.mk src (.ofList (l ++ (sty, snm, .mk fs' subs) :: r))) = some (c, files') ∧
      OnlyName e.y.win u k.cls.path (e.y.p ++ n) fX fX' ∧ V8.Root.InProduct e c dh sty v ∧ e.x.E.nameOf U = some sty ∧
      GrownBy c e.y.win e.rnd fX fu d0 dh base files ∧ GrownBy c e.y.win e.rnd fX' fu d0 d' base files' ∧ OneMore U v (rootVal d0) (rootVal dh) ∧ OneMore U v (rootVal d0) (rootVal d') ∧
      ∀ x nd, (x, nd) ∈ fX ↔ (x ∈ V8.Tree.own C sty v ∨ ∃ con' ty' v', Inside C e.x.E F sty v con' ty' v' ∧ x ∈ V8.Tree.own C ty' v') ∧ F x = some nd := by
  obtain ⟨files, names, w1, w2, w3⟩ := V8.Root.C62_product types C g e c ver F ord shuf nm m info _ file fu ur dr dh hC hE hy hp ha hv0 hT hsame hord hshuf hd hx hok hin
  obtain ⟨ps, t, j, os, o, hK⟩ := extracted types C g e c ver F ord nm m info src _ file fu ur dr dh hC hE hy hp hau hv0 hT hsame hord hd hx hok hin
  have hmem : (sty, snm, V8.Tree.Dir.mk fs subs) ∈ l ++ (sty, snm, .mk fs subs) :: r := List.mem_append_right _ List.mem_cons_self
  obtain ⟨ob, hob, z, fX, b1, b2, b3, b4, b5, b6, b7⟩ := object_of hK.kids _ hmem
  simp only at b1 b2 b3
  obtain ⟨hready, hfound⟩ := lists_ready hK.paths hK.taken (hin.lists ps hK.paths) ob hob
  obtain ⟨U, hU1, hU2⟩ := type_found hE (hin.auto hau).1 hfound
  have hnm := names_middle (fun s : Text × Text × V8.Tree.Dir => (s.1, s.2.1)) hK.folders
  have hes : ∀ es kf, buildSubs (handlers C g e.x { e.y with prod := o.productVersion } ver) ord (conIn c j) (V8.Root.kindOf c).name (.ofList (l ++ r)) = some (es, kf) →
      es ≠ [] ∧ ((z :: es).map (fun e => (e.ty, e.nm))).Nodup ∧ (({ z with nm := n } :: es).map (fun e => (e.ty, e.nm))).Nodup ∧ ∀ w ∈ z :: es, e.y.E.handler w.ty ≠ .missing := by
    intro es kf h
    obtain ⟨os', ho'⟩ := some_objects (R := Comes (handlers C g e.x { e.y with prod := o.productVersion } ver) ord (conIn c j) (V8.Root.kindOf c).name (ItsFiles C e.x.E F)
      (fun z => e.y.E.handler z.ty ≠ .missing ∧ z.nm = nm z.data)) (l := l ++ r) (fun q hq => by
        obtain ⟨o', _, h⟩ := object_of hK.kids q (by
          rcases List.mem_append.mp hq with hq | hq
          · exact List.mem_append_left _ hq
          · exact List.mem_append_right _ (List.mem_cons_of_mem _ hq))
        exact ⟨o', h⟩)
    obtain ⟨es', kf', k1, k2, _, k4⟩ := subs_come ho'
    rw [h] at k1
    cases k1
    refine ⟨?_, ?_, ?_, ?_⟩
    · intro h0
      rw [h0] at k2
      exact hne (List.map_eq_nil_iff.mp k2.symm)
    · rw [List.map_cons, k2, b2, b3]
      exact hnm
    · rw [List.map_cons, k2]
      rw [List.nodup_cons] at hnm ⊢
      refine ⟨?_, hnm.2⟩
      intro hm
      obtain ⟨q, hq, hqe⟩ := List.mem_map.mp hm
      simp only [Prod.mk.injEq] at hqe
      exact hnew q hq (hqe.1.trans b2) hqe.2
    · intro w hw
      rcases List.mem_cons.mp hw with rfl | hw
      · exact b6.1
      · exact (k4 w hw).1
  rw [hK.version] at hes
  obtain ⟨files', fX', base, d0, d, d', k1, k2, k3, k4, k5, k6, k7, k8⟩ := C83_product_name_auto C hC g e ord shuf file src l r sty snm fs fs' subs k u n hcl he j c ver o ur fu t z fX ps U hK.read
    (by rw [ha, hau]) hord hshuf b1 (by rw [hK.version]; exact hes) hK.kept (by rw [b4, hy]; exact hready) (by rw [b4, hy]; exact hU2) c files w1
  obtain ⟨es, kf, s1, s2, s3, s4⟩ := subs_come hK.kids
  have hback := lists_back hK hE hy hau ha hord hin (es := es) (by
    intro h0
    rw [h0] at s2
    have := congrArg List.length s2
    simp at this) s3 s4 (V8.Root.kindOf c).name
  have hdd := k8 es kf s1
  rw [hback] at hdd
  have hdd' : d = dh := by
    have := congrArg (fun v => v.bind rootOf) hdd
    simp only [Option.bind_some, rootOf_rootVal] at this
    exact (Option.some.inj this).symm
  subst hdd'
  rw [b5] at k6 k7
  refine ⟨files, files', base, fX, fX', d0, d', U, ob.orig, w1, k1, k2, ?_, ?_, k4, k5, k6, k7, ?_⟩
  · rw [← b2, b4]; exact hK.listed ob hob
  · rw [← b2, b4]; exact hU1
  · intro x nd
    have := b7 (x, nd)
    unfold ItsFiles at this
    rw [← b4, b2] at this
    exact this

end V8.Describe
