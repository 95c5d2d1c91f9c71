import Verif.Props.Folders
import Verif.Props.EditRound
import Verif.Props.RootNeg
import Verif.Props.RootAgain
/-
C82: a folder of an object is added to the sources of a product or taken away: the product.
-/
namespace V8.Folders
open V8.Brace V8.Enc V8.JsonText V8.Header V8.Store V8.Tree V8.Product
open V8.Nested hiding Handler Env
open V8.Object hiding Cls
open V8.Misc (Cls)
open V8.Root (listPaths putLists listsIn rootIn frontIn versionsIn headerIn optionsIn conIn Apart slotsAt)
open V8.Edit (productClass)

/-! ### specification -/

/-- The files `new` of a product are the files `old` and the files `add`, but for the header, the file `fu`, which is `d'` instead of `d`, and the table of versions, which names the files that
are there (an extension has none). -/
def GrownBy (c : Cls) (win : Bool) (rnd : Nat → Text) (add : List (Text × Node)) (fu : Text) (d d' : List (List Val)) (old new : List (Text × Node)) : Prop :=
  ∃ p q r names names', old = p ++ q ++ (fu, .file (braceFile win d)) :: r ++ versionsIn c win rnd names ∧
    new = p ++ add ++ q ++ (fu, .file (braceFile win d')) :: r ++ versionsIn c win rnd names' ∧
    (c ≠ .extension → names.Perm (old.map (·.1)) ∧ names'.Perm (new.map (·.1)))

/-- the list of the objects of the type `ty` stands in the header under the name of the type, in one place; any other list stands under the name of its type, or is one that no object changes -/
structure ListsReady (E : V8.Nested.Env) (ty : Text) (v : Val) (ps : List (List Nat)) : Prop where
  apart : ps.Pairwise Apart
  place : ∃ p ∈ ps, ∃ k, 2 ≤ p.length ∧ (slotsAt v p)[k]? = some (.str ty) ∧ (∃ n c, getAt v (p ++ [2]) = some (.str n) ∧ V8.Dec.parseInt n = some c ∧ k < c.toNat) ∧
    ∀ q ∈ ps, ∀ i s, (q ≠ p ∨ i ≠ k) → (slotsAt v q)[i]? = some s →
      (∃ ty', s = .str ty' ∧ ty' ≠ ty) ∨ ∀ es : List Entry, (∀ e ∈ es, E.handler e.ty ≠ .missing) → fillSlot E es s = some s

/-- what the build reads in the sources of a product: class, description, options, identifiers, header -/
structure SourcesOf (e : V8.Root.Env) (file : Text) (src : List (Place Node)) (j : JT) (c : Cls) (ver : Text) (o : Options) (u fu : Text) (h1 : Val) : Prop where
  kind : ∃ ty bo, V8.Misc.getEncoder (fun n => (fileIn (folder src) n).isSome) = some ty ∧ fileIn (folder src) (ty ++ ".json".toList) = some bo ∧ readFile bo = some j
  cls : productClass e j = some (c, ver)
  opts : optionsIn e.o (fileIn (folder src) "version.bin".toList) = some o
  uuid : textAt j "uuid".toList = some u
  fileUuid : textAt j "file_uuid".toList = some fu
  header : ∃ h, treeAt j "header".toList = some h ∧ headerIn c o file j h = some h1

/-! ### the nested objects -/

theorem subs_append (K : Text → Option Handler) (ord : Text → List Entry → List Entry) (con : Option Text) (id : Text) : ∀ l r : List (Text × Text × Dir),
    buildSubs K ord con id (.ofList (l ++ r)) = (buildSubs K ord con id (.ofList l)).bind (fun a => (buildSubs K ord con id (.ofList r)).map (fun b => (a.1 ++ b.1, a.2 ++ b.2)))
  | [], r => by
    rw [List.nil_append, Subs.ofList, buildSubs, Option.bind_some]
    cases buildSubs K ord con id (.ofList r) <;> rfl
  | (ty, nm, d) :: l, r => by
    rw [List.cons_append, Subs.ofList, Subs.ofList, buildSubs, buildSubs, subs_append K ord con id l r]
    cases buildDir K ord con id ty nm d with
    | none => rfl
    | some a =>
      cases buildSubs K ord con id (.ofList l) with
      | none => rfl
      | some b =>
        cases buildSubs K ord con id (.ofList r) with
        | none => rfl
        | some z => simp only [Option.bind_some, Option.map_some, List.append_assoc]

/-! ### the files of the product itself -/

theorem root_rows {l : List Val} : (∃ d, Val.list l = rootVal d) ↔ ∀ v ∈ l, ∃ r, v = .list r := by
  constructor
  · rintro ⟨d, h⟩ v hv
    unfold rootVal at h
    rw [Val.list.inj h] at hv
    obtain ⟨r, _, rfl⟩ := List.mem_map.mp hv
    exact ⟨r, rfl⟩
  · intro h
    induction l with
    | nil => exact ⟨[], rfl⟩
    | cons a l ih =>
      obtain ⟨d, hd⟩ := ih (fun v hv => h v (List.mem_cons_of_mem _ hv))
      obtain ⟨r, rfl⟩ := h a List.mem_cons_self
      refine ⟨r :: d, ?_⟩
      unfold rootVal at hd ⊢
      rw [List.map_cons, Val.list.inj hd]

theorem setAt_root {h h' w : Val} {i k : Nat} {q : List Nat} (hs : setAt h (i :: k :: q) w = some h') : (∃ d, h = rootVal d) ↔ ∃ d, h' = rootVal d := by
  cases h with
  | none => simp [setAt] at hs
  | str _ => simp [setAt] at hs
  | list l =>
    rw [setAt] at hs
    cases hi : l[i]? with
    | none => simp [hi] at hs
    | some x =>
      simp only [hi, Option.map_eq_some_iff] at hs
      obtain ⟨y, hy, rfl⟩ := hs
      obtain ⟨row, row', rfl, rfl⟩ : ∃ row row', x = .list row ∧ y = .list row' := by
        cases x with
        | none => simp [setAt] at hy
        | str _ => simp [setAt] at hy
        | list row =>
          rw [setAt] at hy
          cases hk : row[k]? with
          | none => simp [hk] at hy
          | some z =>
            simp only [hk, Option.map_eq_some_iff] at hy
            obtain ⟨z', _, rfl⟩ := hy
            exact ⟨row, _, rfl, rfl⟩
      have hil : i < l.length := (List.getElem?_eq_some_iff.mp hi).1
      rw [root_rows, root_rows]
      constructor
      · intro hh v hv
        rcases List.mem_or_eq_of_mem_set hv with hv | rfl
        · exact hh v hv
        · exact ⟨row', rfl⟩
      · intro hh v hv
        obtain ⟨m, hm, rfl⟩ := List.mem_iff_getElem.mp hv
        by_cases him : m = i
        · subst him
          refine ⟨row, ?_⟩
          have := (List.getElem?_eq_some_iff.mp hi).2
          exact this
        · refine hh _ ?_
          rw [List.mem_iff_getElem]
          exact ⟨m, by simpa using hm, by rw [List.getElem_set_ne (Ne.symm him)]⟩

theorem OneMore.root {u : Text} {x h h' : Val} (hm : OneMore u x h h') : (∃ d, h = rootVal d ∧ rootOf h = some d) ∧ (∃ d, h' = rootVal d ∧ rootOf h' = some d) ∨ rootOf h = none ∧ rootOf h' = none := by
  obtain ⟨q, a, b, hq, _, hs⟩ := hm
  match q, hq, hs with
  | i :: k :: q, _, hs =>
    have := setAt_root hs
    cases h1 : rootOf h with
    | some d =>
      have e1 := (V8.Root.rootVal_rootOf h1).symm
      obtain ⟨d', rfl⟩ := this.mp ⟨d, e1⟩
      exact .inl ⟨⟨d, e1, rfl⟩, d', rfl, rootOf_rootVal d'⟩
    | none =>
      cases h2 : rootOf h' with
      | none => exact .inr ⟨rfl, rfl⟩
      | some d' =>
        obtain ⟨d, rfl⟩ := this.mpr ⟨d', (V8.Root.rootVal_rootOf h2).symm⟩
        rw [rootOf_rootVal] at h1
        cases h1

theorem front_split (c : Cls) (win : Bool) (j : JT) (u fu : Text) : (∃ a b, ∀ hf, frontIn c win j u fu hf = some (a ++ (fu, some hf) :: b)) ∨ ∀ hf, frontIn c win j u fu hf = none := by
  cases c with
  | config =>
    unfold frontIn
    simp only
    cases V8.Root.treeEntry j "root".toList with
    | none => exact .inr (fun _ => rfl)
    | some r =>
      cases V8.Root.treeEntry j "version".toList with
      | none => exact .inr (fun _ => rfl)
      | some v => exact .inl ⟨[_, _], [], fun _ => rfl⟩
  | extension =>
    unfold frontIn
    simp only
    cases (entry j "version".toList).bind valOf with
    | none => exact .inr (fun _ => rfl)
    | some r =>
      cases (entry j "copyinfo".toList).bind valOf with
      | none => exact .inr (fun _ => rfl)
      | some v =>
        simp only [Option.bind_some]
        cases rootOf (V8.Root.extRoot r v) with
        | none => exact .inr (fun _ => rfl)
        | some d => exact .inl ⟨[_], [], fun _ => rfl⟩
  | processor =>
    unfold frontIn
    simp only
    cases V8.Root.treeEntry j "version".toList with
    | none => exact .inr (fun _ => rfl)
    | some r =>
      cases V8.Root.treeEntry j "copyinfo".toList with
      | none => exact .inr (fun _ => rfl)
      | some v =>
        cases V8.Root.form1In j with
        | none => exact .inr (fun _ => rfl)
        | some f => exact .inl ⟨[_, _, _], [_], fun _ => rfl⟩

/-- the files of the product itself, with the header `w` -/
theorem own_files {e : V8.Root.Env} {c : Cls} {ver file : Text} {S : Text → Option Bytes} {j : JT} {o : Options} {u fu : Text} {h h1 : Val} (hu : textAt j "uuid".toList = some u)
    (hfu : textAt j "file_uuid".toList = some fu) (hh : treeAt j "header".toList = some h) (ho : optionsIn e.o (S "version.bin".toList) = some o) (h1h : headerIn c o file j h = some h1) :
    (∃ a b, ∀ made es w d, listsIn e c es h1 = some w → rootOf w = some d → ∃ names, rootIn e c ver file made es S j = some (a ++ (fu, .file (braceFile e.y.win d)) :: b ++
      versionsIn c e.y.win e.rnd names) ∧ (c ≠ .extension → names.Perm (made ++ (a ++ (fu, Node.file (braceFile e.y.win d)) :: b ++ versionsIn c e.y.win e.rnd names).map (·.1)))) ∨
    ∀ made es, rootIn e c ver file made es S j = none := by
  unfold rootIn
  simp only [hu, hfu, hh, ho, h1h, Option.bind_some]
  cases V8.Root.toolOf j with
  | none => exact .inr (fun _ _ => rfl)
  | some v8 =>
    simp only [Option.bind_some]
    by_cases hv : V8.Misc.checkVersion e.tool v8 = .ok ()
    case neg => exact .inr (fun _ _ => by rw [if_pos hv])
    simp only [hv, ne_eq, not_true_eq_false, if_false]
    rcases front_split c e.y.win j u fu with ⟨a, b, hf⟩ | hf
    case inr =>
      refine .inr (fun _ _ => ?_)
      simp only [hf, Option.bind_none, Option.bind_fun_none]
    cases hp : V8.Root.partsIn e.y.win (V8.Root.kindOf c) (V8.Root.directives c ver) S j u with
    | none =>
      refine .inr (fun _ _ => ?_)
      simp only [hf, Option.bind_none, Option.bind_some, Option.bind_fun_none]
    | some parts =>
      cases hi : V8.Root.infosIn e.y.win j u (V8.Root.kindOf c).infos with
      | none =>
        refine .inr (fun _ _ => ?_)
        simp only [hf, Option.map_none, Option.bind_some, Option.bind_fun_none]
      | some infos =>
        refine .inl ⟨written a, written b ++ written parts ++ written infos, ?_⟩
        intro made es w d hw hd
        refine ⟨made ++ (written a ++ (fu, Node.file (braceFile e.y.win d)) :: written b).map (·.1) ++ ["versions".toList] ++ (written parts).map (·.1), ?_, ?_⟩
        · simp only [hw, hd, hf, Option.bind_some, Option.map_some]
          rw [V8.Root.written_append, V8.Root.written_append, V8.Root.written_append, V8.Root.written_cons_some]
          simp only [List.append_assoc, List.cons_append]
        · intro hc
          have hinf : infos = [] := by
            cases c with
            | extension => exact absurd rfl hc
            | config => exact (Option.some.inj hi).symm
            | processor => exact (Option.some.inj hi).symm
          subst hinf
          have hver : ∀ names, (versionsIn c e.y.win e.rnd names).map (·.1) = ["versions".toList] := by
            intro names
            cases c with
            | extension => exact absurd rfl hc
            | config => rfl
            | processor => rfl
          have hnil : written ([] : List (Place Node)) = [] := rfl
          simp only [List.map_append, List.map_cons, hver, hnil, List.map_nil, List.append_assoc, List.cons_append, List.append_nil]
          refine List.Perm.append_left _ ?_
          refine List.Perm.append_left _ (List.Perm.cons _ ?_)
          refine List.Perm.append_left _ ?_
          exact (List.perm_append_comm (l₁ := ["versions".toList])).symm.symm

/-! ### the product -/

theorem build_read {e : V8.Root.Env} {file : Text} {src : List (Place Node)} {j : JT} {c : Cls} {ver : Text} {o : Options} {u fu : Text} {h1 : Val} (hs : SourcesOf e file src j c ver o u fu h1)
    (K : Text → Text → Text → Option Handler) (ord : Text → List Entry → List Entry) (shuf : List Text → List Text) (subs : Subs) :
    V8.Root.buildProduct e K ord shuf file (.mk src subs) = (buildSubs (K ver o.productVersion) ord (conIn c j) (V8.Root.kindOf c).name subs).bind (fun r =>
      (rootIn e c ver file (shuf (r.2.map (·.1))) (ord (V8.Root.kindOf c).name r.1) (fileIn (folder src)) j).map (fun fs => (c, r.2 ++ fs))) := by
  obtain ⟨ty, bo, k1, k2, k3⟩ := hs.kind
  have hc := hs.cls
  unfold productClass at hc
  have e2 : objName ty = ty ++ ".json".toList := rfl
  unfold V8.Root.buildProduct V8.Root.buildFrom
  simp only [k1, e2, k2, k3, hc, hs.opts, Option.bind_some]

/-- see C82_product; `d` and `d'` are what the header becomes -/
theorem product_grown (e : V8.Root.Env) (K : Text → Text → Text → Option Handler) (ord : Text → List Entry → List Entry) (shuf : List Text → List Text) (file : Text) (src : List (Place Node))
    (l r : List (Text × Text × Dir)) (xty xnm : Text) (xd : Dir) (j : JT) (c : Cls) (ver : Text) (o : Options) (u fu : Text) (h1 : Val) (y : Entry) (fX : List (Text × Node)) (ps : List (List Nat)) (U : Text)
    (hs : SourcesOf e file src j c ver o u fu h1) (hauto : e.y.auto = true) (hord : ∀ id l, (ord id l).Perm l) (hshuf : ∀ l, (shuf l).Perm l)
    (hx : buildDir (K ver o.productVersion) ord (conIn c j) (V8.Root.kindOf c).name xty xnm xd = some ([y], fX))
    (hes : ∀ es kf, buildSubs (K ver o.productVersion) ord (conIn c j) (V8.Root.kindOf c).name (.ofList (l ++ r)) = some (es, kf) →
      es ≠ [] ∧ ((y :: es).map (fun e => (e.ty, e.nm))).Nodup ∧ ∀ z ∈ y :: es, e.y.E.handler z.ty ≠ .missing)
    (hps : listPaths e.groups c h1 = some ps) (hl : ListsReady e.y.E y.ty h1 ps) (hU : e.y.E.uuidOf y.ty = some U) :
    (∃ files files' d d', V8.Root.buildProduct e K ord shuf file (.mk src (.ofList (l ++ r))) = some (c, files) ∧
      V8.Root.buildProduct e K ord shuf file (.mk src (.ofList (l ++ (xty, xnm, xd) :: r))) = some (c, files') ∧
      GrownBy c e.y.win e.rnd fX fu d d' files files' ∧ OneMore U y.data (rootVal d) (rootVal d') ∧
      (∀ es kf, buildSubs (K ver o.productVersion) ord (conIn c j) (V8.Root.kindOf c).name (.ofList (l ++ r)) = some (es, kf) → listsIn e c (ord (V8.Root.kindOf c).name es) h1 = some (rootVal d)) ∧
      ∀ es kf, buildSubs (K ver o.productVersion) ord (conIn c j) (V8.Root.kindOf c).name (.ofList (l ++ (xty, xnm, xd) :: r)) = some (es, kf) →
        listsIn e c (ord (V8.Root.kindOf c).name es) h1 = some (rootVal d')) ∨
    (V8.Root.buildProduct e K ord shuf file (.mk src (.ofList (l ++ r))) = none ∧ V8.Root.buildProduct e K ord shuf file (.mk src (.ofList (l ++ (xty, xnm, xd) :: r))) = none) := by
  rw [build_read hs, build_read hs]
  have hsub := subs_append (K ver o.productVersion) ord (conIn c j) (V8.Root.kindOf c).name l r
  have hsub' : buildSubs (K ver o.productVersion) ord (conIn c j) (V8.Root.kindOf c).name (.ofList (l ++ (xty, xnm, xd) :: r)) =
      (buildSubs (K ver o.productVersion) ord (conIn c j) (V8.Root.kindOf c).name (.ofList l)).bind (fun a =>
        (buildSubs (K ver o.productVersion) ord (conIn c j) (V8.Root.kindOf c).name (.ofList r)).map (fun b => (a.1 ++ y :: b.1, a.2 ++ (fX ++ b.2)))) := by
    rw [subs_append, Subs.ofList, buildSubs, hx, Option.bind_some]
    simp only [Option.map_map]
    rfl
  cases hL : buildSubs (K ver o.productVersion) ord (conIn c j) (V8.Root.kindOf c).name (.ofList l) with
  | none =>
    rw [hL] at hsub hsub'
    refine .inr ⟨?_, ?_⟩
    · rw [hsub]; rfl
    · rw [hsub']; rfl
  | some a =>
    cases hR : buildSubs (K ver o.productVersion) ord (conIn c j) (V8.Root.kindOf c).name (.ofList r) with
    | none =>
      rw [hL, hR] at hsub hsub'
      refine .inr ⟨?_, ?_⟩
      · rw [hsub]; rfl
      · rw [hsub']; rfl
    | some b =>
      rw [hL, hR] at hsub hsub'
      simp only [Option.bind_some, Option.map_some] at hsub hsub'
      obtain ⟨hne, hnd, hreal⟩ := hes _ _ hsub
      rw [hsub, hsub']
      simp only [Option.bind_some]
      have hperm : (ord (V8.Root.kindOf c).name (a.1 ++ y :: b.1)).Perm (y :: ord (V8.Root.kindOf c).name (a.1 ++ b.1)) :=
        (hord _ _).trans (List.perm_middle.trans ((hord _ _).symm.cons y))
      have hmem : ∀ z ∈ ord (V8.Root.kindOf c).name (a.1 ++ y :: b.1), z ∈ y :: (a.1 ++ b.1) := fun z hz => List.perm_middle.subset ((hord _ _).subset hz)
      have hmem0 : ∀ z ∈ ord (V8.Root.kindOf c).name (a.1 ++ b.1), z ∈ y :: (a.1 ++ b.1) := fun z hz => List.mem_cons_of_mem _ ((hord _ _).subset hz)
      have hnames : ((ord (V8.Root.kindOf c).name (a.1 ++ y :: b.1)).map (fun e => (e.ty, e.nm))).Nodup :=
        (((hord _ _).trans List.perm_middle).map _).nodup_iff.mpr hnd
      obtain ⟨p, hp, k, hdeep, hslot, hcount, hoth⟩ := hl.place
      have hhere : Here e.y.E y (ord (V8.Root.kindOf c).name (a.1 ++ b.1)) (ord (V8.Root.kindOf c).name (a.1 ++ y :: b.1)) h1 ps p k := by
        refine ⟨hl.apart, hp, hdeep, hslot, hcount, ?_⟩
        intro q hq i s hi hs'
        rcases hoth q hq i s hi hs' with ⟨ty', rfl, hty⟩ | hfix
        · exact slot_other hperm hnames hty
        · rw [hfix _ (fun z hz => hreal z (hmem z hz)), hfix _ (fun z hz => hreal z (hmem0 z hz))]
      have hes0 : ord (V8.Root.kindOf c).name (a.1 ++ b.1) ≠ [] := by
        intro h0
        have := hord (V8.Root.kindOf c).name (a.1 ++ b.1)
        rw [h0] at this
        exact hne this.nil_eq.symm
      have hes1 : ord (V8.Root.kindOf c).name (a.1 ++ y :: b.1) ≠ [] := by
        intro h0
        rw [h0] at hperm
        exact absurd hperm.nil_eq (by simp)
      have hl0 : listsIn e c (ord (V8.Root.kindOf c).name (a.1 ++ b.1)) h1 = putLists e.y.E (ord (V8.Root.kindOf c).name (a.1 ++ b.1)) ps h1 := by
        unfold listsIn
        rw [if_neg (by simp [hes0, hauto]), hps, Option.bind_some]
      have hl1 : listsIn e c (ord (V8.Root.kindOf c).name (a.1 ++ y :: b.1)) h1 = putLists e.y.E (ord (V8.Root.kindOf c).name (a.1 ++ y :: b.1)) ps h1 := by
        unfold listsIn
        rw [if_neg (by simp [hes1, hauto]), hps, Option.bind_some]
      obtain ⟨h, hh, hh1⟩ := hs.header
      have bothNone : ∀ {es : List Entry} {made : List Text}, (∀ w, listsIn e c es h1 = some w → rootOf w = none) →
          rootIn e c ver file made es (fileIn (folder src)) j = none := by
        intro es made hw
        unfold rootIn
        simp only [hs.uuid, hs.fileUuid, hh, hs.opts, hh1, Option.bind_some]
        cases V8.Root.toolOf j with
        | none => rfl
        | some v8 =>
          simp only [Option.bind_some]
          split
          · rfl
          · cases hli : listsIn e c es h1 with
            | none => rfl
            | some w => simp only [Option.bind_some, hw w hli, Option.bind_none]
      rcases lists_grown hperm hnames hU hhere with ⟨w, w', e1, e2, hm⟩ | ⟨e1, e2⟩
      case inr =>
        refine .inr ⟨?_, ?_⟩
        · rw [bothNone (fun w hw => by rw [hl0, e1] at hw; cases hw)]; rfl
        · rw [bothNone (fun w hw => by rw [hl1, e2] at hw; cases hw)]; rfl
      rcases hm.root with ⟨⟨d, rfl, hd⟩, d', rfl, hd'⟩ | ⟨hd, hd'⟩
      case inr =>
        refine .inr ⟨?_, ?_⟩
        · rw [bothNone (fun w hw => by rw [hl0, e1] at hw; cases hw; exact hd)]; rfl
        · rw [bothNone (fun w hw => by rw [hl1, e2] at hw; cases hw; exact hd')]; rfl
      rcases own_files (ver := ver) hs.uuid hs.fileUuid hh hs.opts hh1 with ⟨A, B, hown⟩ | hown
      case inr =>
        refine .inr ⟨?_, ?_⟩
        · rw [hown]; rfl
        · rw [hown]; rfl
      obtain ⟨n, o1, o2⟩ := hown (shuf ((a.2 ++ b.2).map (·.1))) _ _ d (hl0.trans e1) hd
      obtain ⟨n', o3, o4⟩ := hown (shuf ((a.2 ++ (fX ++ b.2)).map (·.1))) _ _ d' (hl1.trans e2) hd'
      refine .inl ⟨_, _, d, d', by rw [o1]; rfl, by rw [o3]; rfl, ⟨a.2, b.2 ++ A, B, n, n', ?_, ?_, ?_⟩, hm,
        fun es kf h => (by cases h; exact hl0.trans e1), fun es kf h => (by cases h; exact hl1.trans e2)⟩
      · simp only [List.append_assoc]
      · simp only [List.append_assoc]
      · intro hc
        have g1 := (o2 hc).trans ((hshuf _).append_right _)
        have g2 := (o4 hc).trans ((hshuf _).append_right _)
        rw [← List.map_append] at g1 g2
        exact ⟨g1, g2⟩

/-- **C82, one folder more or less.**  With auto_include: the sources of a product, and the same sources with the folder `xd` of one object more, which builds by itself to the files `fX` and delivers
the entry `y`.  If the names of the objects of each type are distinct, and the list of the type of `y` stands in the recorded header under the name of the type (extraction leaves it so if it had an
object), the build succeeds for both or for none, and the products differ in just the files `fX`, the line of the object in the list of its type with the number of objects there, and the table of
versions. -/
theorem C82_product (e : V8.Root.Env) (K : Text → Text → Text → Option Handler) (ord : Text → List Entry → List Entry) (shuf : List Text → List Text) (file : Text) (src : List (Place Node))
    (l r : List (Text × Text × Dir)) (xty xnm : Text) (xd : Dir) (j : JT) (c : Cls) (ver : Text) (o : Options) (u fu : Text) (h1 : Val) (y : Entry) (fX : List (Text × Node)) (ps : List (List Nat)) (U : Text)
    (hs : SourcesOf e file src j c ver o u fu h1) (hauto : e.y.auto = true) (hord : ∀ id l, (ord id l).Perm l) (hshuf : ∀ l, (shuf l).Perm l)
    (hx : buildDir (K ver o.productVersion) ord (conIn c j) (V8.Root.kindOf c).name xty xnm xd = some ([y], fX))
    (hes : ∀ es kf, buildSubs (K ver o.productVersion) ord (conIn c j) (V8.Root.kindOf c).name (.ofList (l ++ r)) = some (es, kf) →
      es ≠ [] ∧ ((y :: es).map (fun e => (e.ty, e.nm))).Nodup ∧ ∀ z ∈ y :: es, e.y.E.handler z.ty ≠ .missing)
    (hps : listPaths e.groups c h1 = some ps) (hl : ListsReady e.y.E y.ty h1 ps) (hU : e.y.E.uuidOf y.ty = some U) :
    (∃ files files' d d', V8.Root.buildProduct e K ord shuf file (.mk src (.ofList (l ++ r))) = some (c, files) ∧
      V8.Root.buildProduct e K ord shuf file (.mk src (.ofList (l ++ (xty, xnm, xd) :: r))) = some (c, files') ∧
      GrownBy c e.y.win e.rnd fX fu d d' files files' ∧ OneMore U y.data (rootVal d) (rootVal d')) ∨
    (V8.Root.buildProduct e K ord shuf file (.mk src (.ofList (l ++ r))) = none ∧ V8.Root.buildProduct e K ord shuf file (.mk src (.ofList (l ++ (xty, xnm, xd) :: r))) = none) := by
  rcases product_grown e K ord shuf file src l r xty xnm xd j c ver o u fu h1 y fX ps U hs hauto hord hshuf hx hes hps hl hU with ⟨files, files', d, d', k1, k2, k3, k4, _⟩ | h
  · exact .inl ⟨files, files', d, d', k1, k2, k3, k4⟩
  · exact .inr h

end V8.Folders
