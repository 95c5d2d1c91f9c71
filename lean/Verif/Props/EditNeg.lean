import Verif.Props.EditRound
/-
C81: edits of modules of a product that do not get into the product.
-/
namespace V8.Edit
open V8.Brace V8.Enc V8.JsonText V8.Header V8.Store V8.Tree V8.Module
open V8.Nested hiding Handler Env
open V8.Object hiding Cls
open V8.Misc (Cls)

/-- the sources of a product before and after an edit of one `.bsl` file, with what the build reads in them first: the class and the description -/
structure BslEdit (e : V8.Root.Env) (src src' : List (Place Node)) (ty : Text) (bo : Bytes) (j : JT) (cl : Cls) (ver : Text) (c : Text × Text) : Prop where
  kind : V8.Misc.getEncoder (fun n => (fileIn (folder src) n).isSome) = some ty
  obj : folder src (ty ++ ".json".toList) = some (.file bo)
  read : readFile bo = some j
  cls : productClass e j = some (cl, ver)
  module : c ∈ (V8.Root.kindOf cl).codes
  rest : ∀ m, m ≠ (V8.Root.kindOf cl).name ++ '.' :: c.1 ++ ".bsl".toList → folder src' m = folder src m

theorem BslEdit.files {e : V8.Root.Env} {src src' : List (Place Node)} {ty : Text} {bo : Bytes} {j : JT} {cl : Cls} {ver : Text} {c : Text × Text} (h : BslEdit e src src' ty bo j cl ver c) :
    (∀ m, m ≠ bslName (V8.Root.kindOf cl).name c.1 → fileIn (folder src') m = fileIn (folder src) m) ∧
    (∀ m ∈ rootNames (V8.Root.kindOf cl), fileIn (folder src') m = fileIn (folder src) m) ∧
    V8.Misc.getEncoder (fun n => (fileIn (folder src') n).isSome) = some ty ∧ fileIn (folder src) (objName ty) = some bo ∧ fileIn (folder src') (objName ty) = some bo ∧
    fileIn (folder src') "version.bin".toList = fileIn (folder src) "version.bin".toList := by
  have hS := h.rest
  rw [bsl_eq] at hS
  have ho := (root_others cl).1 c h.module
  have fS : ∀ m, m ≠ bslName (V8.Root.kindOf cl).name c.1 → fileIn (folder src') m = fileIn (folder src) m := fileIn_rest hS
  have fR : ∀ m ∈ rootNames (V8.Root.kindOf cl), fileIn (folder src') m = fileIn (folder src) m := fun m hm => fS m (fun hh => ho (hh ▸ hm))
  have fJ : ∀ a ∈ V8.Misc.available, fileIn (folder src') (a.1 ++ ".json".toList) = fileIn (folder src) (a.1 ++ ".json".toList) := fun a ha =>
    fR _ (List.mem_append_left _ (List.mem_append_left _ (List.mem_append_left _ (List.mem_cons_of_mem _ (List.mem_map.mpr ⟨a, ha, rfl⟩)))))
  have fV : fileIn (folder src') "version.bin".toList = fileIn (folder src) "version.bin".toList :=
    fR _ (List.mem_append_left _ (List.mem_append_left _ (List.mem_append_left _ List.mem_cons_self)))
  have hty' : V8.Misc.getEncoder (fun n => (fileIn (folder src') n).isSome) = some ty := by
    rw [← h.kind]
    unfold V8.Misc.getEncoder
    refine find_rest (fun a ha => ?_)
    obtain ⟨a', ha', rfl⟩ := List.mem_map.mp ha
    simp only
    rw [fJ a' ha']
  have hty := h.kind
  have hmem : ∃ a ∈ V8.Misc.available, a.1 = ty := List.mem_map.mp (List.mem_of_find?_eq_some hty)
  obtain ⟨a, ha, rfl⟩ := hmem
  have fbo : fileIn (folder src) (objName a.1) = some bo := by
    have e2 : a.1 ++ ".json".toList = objName a.1 := rfl
    have := h.obj
    rw [e2] at this
    unfold fileIn; rw [this]
  exact ⟨fS, fR, hty', fbo, by rw [← fbo]; exact fJ a ha, fV⟩

/-- the modules are built alike: the products are the same -/
theorem product_rest {e : V8.Root.Env} {K : Text → Text → Text → Option Handler} {ord : Text → List Entry → List Entry} {shuf : List Text → List Text} {file : Text} {subs : Subs}
    {src src' : List (Place Node)} {ty : Text} {bo : Bytes} {j : JT} {cl : Cls} {ver : Text} {c : Text × Text} (h : BslEdit e src src' ty bo j cl ver c)
    (hc : ∀ u, codesIn e.y.win (V8.Root.directives cl ver) (V8.Root.kindOf cl).name (fileIn (folder src')) j u (V8.Root.kindOf cl).codes =
      codesIn e.y.win (V8.Root.directives cl ver) (V8.Root.kindOf cl).name (fileIn (folder src)) j u (V8.Root.kindOf cl).codes) :
    V8.Root.buildProduct e K ord shuf file (.mk src' subs) = V8.Root.buildProduct e K ord shuf file (.mk src subs) := by
  obtain ⟨fS, fR, hty', fbo, fbo', fV⟩ := h.files
  have hcl := h.cls
  unfold productClass at hcl
  have hparts : ∀ u, V8.Root.partsIn e.y.win (V8.Root.kindOf cl) (V8.Root.directives cl ver) (fileIn (folder src')) j u =
      V8.Root.partsIn e.y.win (V8.Root.kindOf cl) (V8.Root.directives cl ver) (fileIn (folder src)) j u := by
    intro u
    unfold V8.Root.partsIn
    rw [helpIn_rest, imagesIn_rest, filesIn_rest, hc]
    · intro n hn
      exact fR _ (List.mem_append_right _ (List.mem_map.mpr ⟨n, hn, rfl⟩))
    · intro pp hpp
      exact fR _ (List.mem_append_left _ (List.mem_append_right _ (by rw [hpp]; exact List.mem_cons_self)))
    · intro sfx hsfx
      refine ⟨fR _ ?_, fR _ ?_⟩
      · exact List.mem_append_left _ (List.mem_append_left _ (List.mem_append_right _ (by rw [hsfx]; exact List.mem_cons_self)))
      · exact List.mem_append_left _ (List.mem_append_left _ (List.mem_append_right _ (by rw [hsfx]; exact List.mem_cons_of_mem _ List.mem_cons_self)))
  have hroot : ∀ made es, V8.Root.rootIn e cl ver file made es (fileIn (folder src')) j = V8.Root.rootIn e cl ver file made es (fileIn (folder src)) j := by
    intro made es
    unfold V8.Root.rootIn
    rw [fV]
    simp only [hparts]
  unfold V8.Root.buildProduct V8.Root.buildFrom
  simp only
  rw [hty', h.kind]
  simp only [Option.bind_some, fbo, fbo', h.read, hcl, fV, hroot]

theorem codesIn_same {win cd : Bool} {k : Text} {S S' : Text → Option Bytes} {j : JT} {u : Text} : ∀ {l : List (Text × Text)}, (∀ c ∈ l, codeIn win cd k S' j u c = codeIn win cd k S j u c) →
    codesIn win cd k S' j u l = codesIn win cd k S j u l
  | [], _ => rfl
  | c :: l, h => by
    rw [codesIn, codesIn, h c List.mem_cons_self, codesIn_same (fun c hc => h c (List.mem_cons_of_mem _ hc))]

/-- the names of the sources of the modules of a product -/
theorem root_bsl (cl : Cls) : (∀ a ∈ (V8.Root.kindOf cl).codes, ∀ c ∈ (V8.Root.kindOf cl).codes, bslName (V8.Root.kindOf cl).name a.1 = bslName (V8.Root.kindOf cl).name c.1 → a = c) ∧
    ∀ a ∈ (V8.Root.kindOf cl).codes, ∀ c ∈ (V8.Root.kindOf cl).codes, binName (V8.Root.kindOf cl).name a.1 ≠ bslName (V8.Root.kindOf cl).name c.1 := by
  cases cl <;> decide +kernel

/-- what stands in a `.bsl` file is not looked at: the modules are built alike -/
theorem codes_ignored {e : V8.Root.Env} {src src' : List (Place Node)} {ty : Text} {bo : Bytes} {j : JT} {cl : Cls} {ver : Text} {c : Text × Text} (h : BslEdit e src src' ty bo j cl ver c)
    (hc : codeInfo j c.1 = some none ∨ encOf j c.1 = some .bin) (u : Text) :
    codesIn e.y.win (V8.Root.directives cl ver) (V8.Root.kindOf cl).name (fileIn (folder src')) j u (V8.Root.kindOf cl).codes =
      codesIn e.y.win (V8.Root.directives cl ver) (V8.Root.kindOf cl).name (fileIn (folder src)) j u (V8.Root.kindOf cl).codes := by
  obtain ⟨fS, _⟩ := h.files
  obtain ⟨hb1, hb2⟩ := root_bsl cl
  refine codesIn_same (fun a ha => ?_)
  by_cases hac : a = c
  · subst hac
    unfold codeIn
    rcases hc with hc | hc
    · rw [hc]
    · rw [hc]
      cases hi : codeInfo j a.1 with
      | none => rfl
      | some i =>
        cases i with
        | none => rfl
        | some i =>
          simp only [Option.bind_some]
          rw [fS _ (hb2 a ha a ha)]
          congr 1
  · exact codeIn_rest (fS _ (fun hh => hac (hb1 a ha c h.module hh))) (fS _ (hb2 a ha c h.module))

/-- C81 is false of the code for a module the product does not have: a `.bsl` file put into the sources for it is ignored, without a message. -/
theorem C81_added_module_ignored_neg (e : V8.Root.Env) (K : Text → Text → Text → Option Handler) (ord : Text → List Entry → List Entry) (shuf : List Text → List Text) (file : Text) (subs : Subs)
    (src src' : List (Place Node)) (ty : Text) (bo : Bytes) (j : JT) (cl : Cls) (ver : Text) (c : Text × Text) (h : BslEdit e src src' ty bo j cl ver c) (hc : codeInfo j c.1 = some none) :
    V8.Root.buildProduct e K ord shuf file (.mk src' subs) = V8.Root.buildProduct e K ord shuf file (.mk src subs) :=
  product_rest h (codes_ignored h (.inl hc))

/-- C81 is false of the code for a module that is kept as bytes (a protected module): a `.bsl` file put beside the binary file is ignored, without a message. -/
theorem C81_binary_module_ignored_neg (e : V8.Root.Env) (K : Text → Text → Text → Option Handler) (ord : Text → List Entry → List Entry) (shuf : List Text → List Text) (file : Text) (subs : Subs)
    (src src' : List (Place Node)) (ty : Text) (bo : Bytes) (j : JT) (cl : Cls) (ver : Text) (c : Text × Text) (h : BslEdit e src src' ty bo j cl ver c) (hc : encOf j c.1 = some .bin) :
    V8.Root.buildProduct e K ord shuf file (.mk src' subs) = V8.Root.buildProduct e K ord shuf file (.mk src subs) :=
  product_rest h (codes_ignored h (.inr hc))

theorem codesIn_fails {win cd : Bool} {k : Text} {S : Text → Option Bytes} {j : JT} {u : Text} {c : Text × Text} (h : codeIn win cd k S j u c = none) :
    ∀ {l : List (Text × Text)}, c ∈ l → codesIn win cd k S j u l = none
  | [], hm => by cases hm
  | a :: l, hm => by
    rw [codesIn]
    rcases List.mem_cons.mp hm with rfl | hm
    · rw [h]; rfl
    · rw [codesIn_fails h hm]
      cases codeIn win cd k S j u a <;> rfl

/-- C81 is false of the code for a module that is kept in windows-1251 and is given a character this encoding does not have: the whole build fails. -/
theorem C81_unencodable_neg (e : V8.Root.Env) (K : Text → Text → Text → Option Handler) (ord : Text → List Entry → List Entry) (shuf : List Text → List Text) (file : Text) (subs : Subs)
    (src src' : List (Place Node)) (ty : Text) (bo nb : Bytes) (j : JT) (cl : Cls) (ver : Text) (c : Text × Text) (i : Option (List (List Val))) (t : Text)
    (h : BslEdit e src src' ty bo j cl ver c) (hi : codeInfo j c.1 = some (some i)) (he : encOf j c.1 = some .cp1251)
    (hnb : folder src' ((V8.Root.kindOf cl).name ++ '.' :: c.1 ++ ".bsl".toList) = some (.file nb)) (hs : Saved nb t)
    (hcp : cpBytes (osWrite e.y.win (if V8.Root.directives cl ver then comment t else t)) = none) :
    V8.Root.buildProduct e K ord shuf file (.mk src' subs) = none := by
  obtain ⟨fS, fR, hty', fbo, fbo', fV⟩ := h.files
  rw [bsl_eq] at hnb
  have fnb : fileIn (folder src') (bslName (V8.Root.kindOf cl).name c.1) = some nb := by unfold fileIn; rw [hnb]
  obtain ⟨r, h1, h2⟩ := hs
  have hcode : ∀ u, codeIn e.y.win (V8.Root.directives cl ver) (V8.Root.kindOf cl).name (fileIn (folder src')) j u c = none := by
    intro u
    unfold codeIn
    rw [hi, he, fnb]
    simp only [Option.bind_some]
    have hr : ∀ bl, readCode ⟨some i, .cp1251, some nb, bl⟩ = some (.text t) := by
      intro bl
      unfold readCode
      simp only
      rw [if_neg (by decide), h1]
      simp only [Option.map_some, h2]
    have hw : writeCode e.y.win (V8.Root.directives cl ver) .cp1251 (.text t) = none := by
      unfold writeCode
      simp only
      rw [if_neg (by decide)]
      unfold writeText
      exact hcp
    unfold buildModule
    simp only [hr, hw, Option.map_none]
  have hcl := h.cls
  unfold productClass at hcl
  have hparts : ∀ u, V8.Root.partsIn e.y.win (V8.Root.kindOf cl) (V8.Root.directives cl ver) (fileIn (folder src')) j u = none := by
    intro u
    unfold V8.Root.partsIn
    rw [codesIn_fails (hcode u) h.module]
    simp only [Option.map_none, Option.bind_eq_none_iff]
    intros
    trivial
  have hroot : ∀ made es, V8.Root.rootIn e cl ver file made es (fileIn (folder src')) j = none := by
    intro made es
    unfold V8.Root.rootIn
    simp only [hparts, Option.bind_none, Option.bind_eq_none_iff]
    intros
    split
    · rfl
    · simp only [Option.bind_eq_none_iff]
      intros
      trivial
  unfold V8.Root.buildProduct V8.Root.buildFrom
  simp only
  rw [hty']
  simp only [Option.bind_some, fbo', h.read, hcl, hroot, Option.map_none, Option.bind_eq_none_iff]
  intros
  trivial

/-- The same after extraction: a product is extracted that has no file of the module, a `.bsl` file is added for it, and the build makes what it would have made without it. -/
theorem C81_added_after_extraction_neg (C : Text → Option Class) (g : V8.FormObj.Lim) (e : V8.Root.Env) (c : Cls) (ver : Text) (F : Text → Option Node)
    (ord : Text → List Entry → List Entry) (shuf : List Text → List Text) (n : Nat) (info : Info) (src src' : List (Place Node)) (subs : Subs) (file fu u : Text)
    (dr dh : List (List Val)) (m : Text × Text)
    (hT : ∀ u, e.types u ≠ some "ConfigurationExtension".toList) (hsame : V8.Misc.checkVersion e.tool e.tool = .ok ()) (hd : V8.Root.detect e F = some (c, ver))
    (hx : V8.Root.extractProduct e (handlers C g e.x e.y ver) c ver F n = some (info, .mk src subs)) (hok : V8.Root.ProductOk e c ver F file fu u dr dh)
    (hm : m ∈ (V8.Root.kindOf c).codes) (hF : F (u ++ '.' :: m.2) = none)
    (hS : ∀ x, x ≠ (V8.Root.kindOf c).name ++ '.' :: m.1 ++ ".bsl".toList → folder src' x = folder src x) :
    V8.Root.buildProduct e (fun v p => handlers C g e.x { e.y with prod := p } v) ord shuf file (.mk src' subs) =
      V8.Root.buildProduct e (fun v p => handlers C g e.x { e.y with prod := p } v) ord shuf file (.mk src subs) := by
  unfold V8.Root.extractProduct at hx
  simp only [Option.bind_eq_some_iff] at hx
  obtain ⟨⟨info', os, src0⟩, hroot, subs0, _, hx⟩ := hx
  by_cases hnod : (subs0.map (fun s => (s.1, s.2.1))).Nodup
  case neg => rw [if_neg hnod] at hx; cases hx
  rw [if_pos hnod] at hx
  simp only [Option.some.injEq, Prod.mk.injEq, V8.Tree.Dir.mk.injEq] at hx
  obtain ⟨rfl, rfl, rfl⟩ := hx
  obtain ⟨ps, tt, j, bo, _, _, hu, b1, b2, b3, b4, _⟩ := V8.Root.root_back hok hd hT hsame hroot
  have hbo : folder (nodes src0) ((V8.Root.kindOf c).name ++ ".json".toList) = some (.file bo) := by
    rw [folder_nodes]
    have e2 : (V8.Root.kindOf c).name ++ ".json".toList = objName (V8.Root.kindOf c).name := rfl
    rw [e2, b2]
    rfl
  refine C81_added_module_ignored_neg e _ ord shuf file _ (nodes src0) src' _ bo j c ver m ⟨by rw [fileIn_folder]; exact b1, hbo, b3, by unfold productClass; exact b4, hm, hS⟩ ?_
  -- what extraction recorded
  obtain ⟨root, fu', v, hd', h', h1, b, ps, t, g1, g2, g3, g4, g5, g6, g7, g8, g9, rfl⟩ := V8.Root.rootOut_some hroot
  obtain ⟨r1, r2, r3, r4⟩ := V8.Root.description_read (ver := ver) (t := t) g7 (decode_names g5)
  obtain ⟨front, other, compat, vb, parts, k1, k2, k3, k4, k5, rfl⟩ := V8.Root.besideOut_some g7
  have hobj := folder_place (parts.2 ++ vb ++ [(objName (V8.Root.kindOf c).name, some (fileOf e.x.win
    (.obj (written (V8.Root.description c ver front (other ++ compat ++ parts.1) info' t)))))]) (objName (V8.Root.kindOf c).name) (some _)
    (by rw [r4]; exact V8.Root.sources_nodup c) (List.mem_append_right _ List.mem_cons_self)
  cases b2.symm.trans hobj
  cases b3.symm.trans r1
  unfold V8.Root.partsOut at k5
  simp only [Option.bind_eq_some_iff, Option.map_eq_some_iff] at k5
  obtain ⟨help, _, image, _, files, _, codes, hcodes, infos, _, rfl⟩ := k5
  obtain ⟨q, hq, hq1, _⟩ := V8.Root.codesOut_mem hcodes m hm
  unfold codeOut at hq
  have hF' : F (dot info'.uuid m.2) = none := by rw [hu]; exact hF
  rw [hF'] at hq
  cases hq
  have hi := r2 (infoKey m.1, none) (V8.Root.mem_after (List.mem_append_right _ (by
    have := hq1 (infoKey m.1, none) List.mem_cons_self
    simp only [List.mem_append]
    tauto)))
  unfold codeInfo
  rw [hi]

end V8.Edit
