import Verif.Props.RootNeg
import Verif.Props.TreeEx
/-
An example for C62: a configuration with an external data source that has a table with a command, extracted on Windows with auto_include and a prefix,
built on Unix.
-/
namespace V8.Root
open V8.Brace V8.Enc V8.JsonText V8.Header V8.Store V8.Tree V8.Embed
open V8.Nested hiding Env Handler
open V8.Object hiding Cls
open V8.Product (getAt setAt getAt_setAt setAt_getAt setAt_some getAt_frame setAt_setAt Options)
open V8.Misc (Cls)

/-- MetaDataGroup: metadata_types.py:4-11 -/
def metaGroups : List Text :=
  ["9cd510cd-abfc-11d4-9434-004095e12fc7", "9fcd25a0-4822-11d4-9414-008048da11f9", "e3687481-0a87-462c-a166-9f34594f9bba",
   "9de14907-ec23-4a07-96f0-85521cb6b53b", "51f2d5d8-ea4d-4064-8892-82951750031e", "e68182ea-4237-4383-967f-90c1e3370bc7",
   "fb282519-d103-4dd3-bc12-cb271d631dfc"].map String.toList

/-- MetaDataTypes(u).name -/
def typeName (u : Text) : Option Text := metaTypes.lookup u

def pE (rnd : Nat → Text) : Env := ⟨xX, xY, ⟨[], [], none, none⟩, "1.2.11".toList, typeName, metaGroups, rnd⟩

theorem lookup_mem {l : List (Text × Text)} {a b : Text} (h : l.lookup a = some b) : b ∈ l.map (·.2) := by
  induction l with
  | nil => cases h
  | cons p l ih =>
    rw [List.lookup_cons] at h
    cases hq : (a == p.1) with
    | true => rw [hq] at h; cases h; exact List.mem_cons_self
    | false => rw [hq] at h; exact List.mem_cons_of_mem _ (ih h)

/-- no type is called like the class of extensions: extensions are found by `configinfo` only -/
theorem C62_no_extension_type (u : Text) : typeName u ≠ some "ConfigurationExtension".toList := by
  intro h
  exact absurd (lookup_mem h) (by decide +kernel)

/-- sources just extracted are accepted by the same version of the tool -/
theorem C62_same_version : V8.Misc.checkVersion "1.2.11".toList "1.2.11".toList = .ok () := by rfl

/-! ### the files -/

theorem pF1 : xF "root".toList = some (.file (braceFile false pRoot)) := by
  rw [xF_p (by decide)]; unfold pF; rw [if_pos rfl]
theorem pF2 : xF "version".toList = some (.file (braceFile false pVersion)) := by
  rw [xF_p (by decide)]; unfold pF; rw [if_neg (by decide), if_pos rfl]
theorem pF3 : xF "versions".toList = some (.file (braceFile false pVersions)) := by
  rw [xF_p (by decide)]; unfold pF; rw [if_neg (by decide), if_neg (by decide), if_pos rfl]
theorem pF4 : xF ['h'] = some (.file (braceFile false pDH)) := by
  rw [xF_p (by decide)]; unfold pF; rw [if_neg (by decide), if_neg (by decide), if_neg (by decide), if_pos rfl]
theorem pF5 : xF (dot ['p'] "6".toList) = some (.file (utf8 "#Область include_lib_util\nПерем А;\n#КонецОбласти\n".toList)) := by
  rw [xF_p (by decide)]; unfold pF; rw [if_neg (by decide), if_neg (by decide), if_neg (by decide), if_neg (by decide), if_pos rfl]
theorem pFx : ∀ n ∈ ["configinfo".toList] ++ ["7", "0", "5", "3", "2", "4", "9", "8", "10", "a", "b", "c", "d", "e", "f"].map (fun n => dot ['p'] n.toList),
    xF n = none := by
  intro n hn
  have h1 : ∀ n ∈ ["configinfo".toList] ++ ["7", "0", "5", "3", "2", "4", "9", "8", "10", "a", "b", "c", "d", "e", "f"].map (fun n => dot ['p'] n.toList),
    n ∉ [['a'], ['b'], dot ['c'] "2".toList, dot ['a'] "77".toList] ∧ n ∉ ["root".toList, "version".toList, "versions".toList, ['h'], dot ['p'] "6".toList] := by
    decide +kernel
  obtain ⟨h1, h2⟩ := h1 n hn
  exact (xF_p h1).trans (pF_none h2)

theorem pw1 : WFFile pRoot := fileB_ok _ (by decide +kernel)
theorem pw2 : WFFile pVersion := fileB_ok _ (by decide +kernel)
theorem pw3 : WFFile pVersions := fileB_ok _ (by decide +kernel)
theorem pw4 : WFFile pDH := fileB_ok _ (by decide +kernel)

theorem pn1 : need xF "root".toList = some (rootVal pRoot) := need_file pF1 (by decide) pw1
theorem pn2 : need xF "version".toList = some (rootVal pVersion) := need_file pF2 (by decide) pw2
theorem pn3 : need xF "versions".toList = some (rootVal pVersions) := need_file pF3 (by decide) pw3
theorem pn4 : need xF ['h'] = some (rootVal pDH) := need_file pF4 (by decide) pw4

theorem pDetect (rnd : Nat → Text) : detect (pE rnd) xF = some (.config, "803".toList) := by
  have h0 : V8.Misc.handler typeName (Embed.truthy (rootVal pRoot)) (rootVal pVersion) (rootVal pDH) none = some (.config, "803".toList) := by
    decide +kernel
  have h1 : getAt (rootVal pRoot) [0, 1] = some (.str ['h']) := by decide +kernel
  unfold detect
  rw [pF1, pFx "configinfo".toList (by decide)]
  simp only [pn1, pn2, h1, strOf, pn4, Option.bind_some, Option.map_some]
  exact h0

theorem pOk6 : CodeOk false false (xF (dot ['p'] "6".toList)) := .inr (.inl ⟨_, pF5, ex_rebuilt _ (by decide +kernel)⟩)

theorem pParts : PartsOk false config false xF ['p'] := by
  have hx : ∀ n : Text, dot ['p'] n ∈ ["configinfo".toList] ++ ["7", "0", "5", "3", "2", "4", "9", "8", "10", "a", "b", "c", "d", "e", "f"].map (fun n => dot ['p'] n.toList) →
    xF (dot ['p'] n) = none := fun n h => pFx _ h
  refine ⟨?_, ?_, ?_, ?_, ?_⟩
  · intro s hs
    cases hs
    exact .inl (hx _ (by decide +kernel))
  · intro s hs
    cases hs
    exact .inl (hx _ (by decide +kernel))
  · have : ∀ n ∈ config.files, dot ['p'] n ∈ ["configinfo".toList] ++ ["7", "0", "5", "3", "2", "4", "9", "8", "10", "a", "b", "c", "d", "e", "f"].map (fun n => dot ['p'] n.toList) := by
      decide +kernel
    exact fun n hn => .inl (hx n (this n hn))
  · have : ∀ c ∈ config.codes, c.2 = "6".toList ∨ dot ['p'] c.2 ∈ ["configinfo".toList] ++ ["7", "0", "5", "3", "2", "4", "9", "8", "10", "a", "b", "c", "d", "e", "f"].map (fun n => dot ['p'] n.toList) := by
      decide +kernel
    intro c hc
    rcases this c hc with h | h
    · rw [h]; exact pOk6
    · exact .inl (hx _ h)
  · intro n hn
    cases hn

theorem codes_run {w cd win : Bool} {k : Text} {F : Text → Option Node} {u : Text} : ∀ l : List (Text × Text), (∀ c ∈ l, CodeOk win false (F (dot u c.2))) →
    ∃ r, codesOut w cd k F u l = some r
  | [], _ => ⟨_, rfl⟩
  | c :: l, h => by
    obtain ⟨st, hst⟩ := storedOf_ok (h c List.mem_cons_self)
    obtain ⟨r, hr⟩ := codes_run (w := w) (cd := cd) (k := k) l (fun q hq => h q (List.mem_cons_of_mem _ hq))
    rw [codesOut, codeOut, hst, Option.map_some, Option.bind_some, hr]
    exact ⟨_, rfl⟩

theorem files_run {w win : Bool} {k : Text} {F : Text → Option Node} {u : Text} : ∀ l : List Text, (∀ n ∈ l, InfoOk win (F (dot u n))) →
    ∃ r, filesOut w k F u l = some r
  | [], _ => ⟨_, rfl⟩
  | n :: l, h => by
    obtain ⟨r, hr⟩ := files_run (w := w) (k := k) l (fun q hq => h q (List.mem_cons_of_mem _ hq))
    rw [filesOut, fileAt]
    rcases h n List.mem_cons_self with h | ⟨d, h, hne, hd⟩
    · rw [h]
      simp only [Option.bind_some, optTree, hr, Option.map_some]
      exact ⟨_, rfl⟩
    · rw [h]
      simp only [Option.bind_some, optTree, tree_file win d hne hd, hr, Option.map_some]
      exact ⟨_, rfl⟩

theorem pPartsOut : ∃ r, partsOut true config false xF ['p'] = some r := by
  obtain ⟨c, hc⟩ := codes_run (w := true) (cd := false) (k := config.name) config.codes pParts.codes
  obtain ⟨f, hf⟩ := files_run (w := true) (k := config.name) config.files pParts.files
  have h1 : xF (dot ['p'] "3".toList) = none := pFx _ (by decide +kernel)
  have h2 : xF (dot ['p'] "2".toList) = none := pFx _ (by decide +kernel)
  have e1 : helpOut "help".toList xF ['p'] config.help = some ([("help".toList, none)], [(dot "help".toList "html".toList, none), (dot "help".toList "bin".toList, none)]) := by
    show helpOut "help".toList xF ['p'] (some "3".toList) = _
    rw [helpOut, fileAt, h1]
    rfl
  have e2 : imagesOut xF ['p'] config.image = some ([(imageKey "Заставка".toList, none)], [("Заставка".toList, none)]) := by
    show imagesOut xF ['p'] (some ("Заставка".toList, "2".toList)) = _
    rw [imagesOut, fileAt, h2]
    rfl
  unfold partsOut
  rw [e1, e2, hc, hf, Option.bind_some, Option.bind_some, Option.bind_some, Option.bind_some]
  exact ⟨_, rfl⟩

def pInfo : Info := ⟨['p'], "Склад".toList, [], []⟩

theorem pPaths (v : Val) (hv : v = .str ['a'] ∨ v = .str xS) :
    listPaths metaGroups .config (rootVal (pConf (pSources v))) = some [[0, 3, 1], [0, 4, 1, 1]] := by
  rcases hv with rfl | rfl <;> decide +kernel

theorem pRootOut (rnd : Nat → Text) : ∃ src, rootOut (pE rnd) .config "803".toList xF = some (pInfo, [⟨xS, ['a'], .str ['a']⟩], src) := by
  obtain ⟨r, hr⟩ := pPartsOut
  have h1 : getAt (rootVal pRoot) [0, 1] = some (.str ['h']) := by decide +kernel
  have h2 : getAt (rootVal pDH) config.head = some (.list pHead) := by decide +kernel
  have h3 : decodeHeader xX.valid xX.p false pHead = .ok (pInfo, pHead) := by decide +kernel
  have h4 : setAt (rootVal pDH) config.head (.list pHead) = some (rootVal pDH) := setAt_getAt _ _ _ h2
  have h5 : getAt (rootVal pDH) V8.Product.compatConf = some (.str "80316".toList) := by decide +kernel
  have h6 : takeLists xX.E true [] [[0, 3, 1], [0, 4, 1, 1]] (rootVal pDH) =
      some (.list ((pConf (.str xS)).map Val.list), [⟨xS, ['a'], .str ['a']⟩]) := by decide +kernel
  have h7 : listPaths metaGroups .config (rootVal pDH) = some [[0, 3, 1], [0, 4, 1, 1]] := pPaths _ (.inl rfl)
  have hd : directives .config "803".toList = false := by decide +kernel
  obtain ⟨b, hb⟩ : ∃ b, besideOut (pE rnd) .config "803".toList xF (rootVal pRoot) ['h'] pInfo.uuid (rootVal pDH) = some b := by
    unfold besideOut
    rw [hd]
    have ho : otherOut .config (pE rnd).tool xF pInfo.uuid = some [("version".toList, some (jsonOf (rootVal pVersion))), ("versions".toList, some (jsonOf (rootVal pVersions)))] := by
      simp only [otherOut, pn2, pn3, Option.bind_some, Option.map_some]
    have hc : compatOut (kindOf .config) (rootVal pDH) = some [("compatibility_version".toList, some (jsonOf (.str "80316".toList)))] := by
      unfold compatOut
      rw [show (kindOf Cls.config).compat = some V8.Product.compatConf from rfl]
      simp only [h5, Option.map_some]
    have hp : partsOut (pE rnd).x.win (kindOf .config) false xF pInfo.uuid = some r := hr
    rw [ho, hc, hp]
    exact ⟨_, rfl⟩
  have hr1 : need xF (rootName .config) = some (rootVal pRoot) := pn1
  have hr2 : getAt (rootVal pRoot) (filePath .config) = some (.str ['h']) := h1
  have hr3 : getAt (rootVal pDH) (kindOf .config).head = some (.list pHead) := h2
  have hr4 : setAt (rootVal pDH) (kindOf .config).head (.list pHead) = some (rootVal pDH) := h4
  have hr5 : decodeHeader (pE rnd).x.valid (pE rnd).x.p false pHead = .ok (pInfo, pHead) := h3
  have hr6 : takeLists (pE rnd).x.E (pE rnd).x.auto [] [[0, 3, 1], [0, 4, 1, 1]] (rootVal pDH) =
      some (.list ((pConf (.str xS)).map Val.list), [⟨xS, ['a'], .str ['a']⟩]) := h6
  have hr7 : listPaths (pE rnd).groups .config (rootVal pDH) = some [[0, 3, 1], [0, 4, 1, 1]] := h7
  unfold rootOut
  rw [hr1, Option.bind_some, hr2, Option.bind_some, strOf, Option.bind_some, pn4, Option.bind_some, hr3, Option.bind_some, listOf, Option.bind_some, hr5,
    Except.toOption, Option.bind_some, hr4, Option.bind_some, hb, Option.bind_some, hr7, Option.bind_some, hr6, Option.map_some]
  exact ⟨_, rfl⟩

theorem pExtract (rnd : Nat → Text) : ∃ dir, extractProduct (pE rnd) (handlers classOf xG xX xY "803".toList) .config "803".toList xF (0 + 1 + 1 + 1) = some (pInfo, dir) := by
  obtain ⟨src, h1⟩ := pRootOut rnd
  obtain ⟨d, h2⟩ := xTree (conOut .config xF)
  unfold extractProduct
  rw [h1, Option.bind_some]
  simp only
  rw [one_kid (o := ⟨xS, ['a'], .str ['a']⟩) h2, Option.bind_some, if_pos (one_nodup _)]
  exact ⟨_, rfl⟩

theorem pProduct (rnd : Nat → Text) (file : Text) : ProductOk (pE rnd) .config "803".toList xF file ['h'] ['p'] pRoot pDH := by
  have hd : directives .config "803".toList = false := by decide +kernel
  have hh : headOf .config pDH = pHead := by decide +kernel
  refine ⟨pF1, by decide, pw1, by decide +kernel, (fun h => by cases h), pF4, by decide, pw4, by rw [hh]; decide +kernel, ?_, ?_,
    (fun _ => ⟨_, pF2, by decide, pw2⟩), (fun h => by cases h), (fun h => by cases h), by rw [hd]; exact pParts, fun _ => rfl, (fun h => by cases h),
    (fun h => by cases h)⟩
  · intro tok ht
    rw [hh] at ht
    cases ht
    rw [show (pE rnd).x.p = "ОО_".toList from rfl]
    decide +kernel
  · intro _
    decide +kernel

theorem pListed : listed xX.E (rootVal pDH) [[0, 3, 1], [0, 4, 1, 1]] = [(xS, .str ['a'])] := by decide +kernel

theorem pSlots : slotsAt (rootVal pDH) [0, 3, 1] = [] ∧ slotsAt (rootVal pDH) [0, 4, 1, 1] = [pSources (.str ['a'])] := ⟨by rfl, by rfl⟩

theorem pIn {rnd : Nat → Text} {ty : Text} {v : Val} (h : InProduct (pE rnd) .config pDH ty v) : ty = xS ∧ v = .str ['a'] := by
  obtain ⟨ps, h1, h2⟩ := h
  have h3 : listPaths (pE rnd).groups .config (rootVal pDH) = some [[0, 3, 1], [0, 4, 1, 1]] := pPaths _ (.inl rfl)
  rw [h3] at h1
  cases h1
  have h4 : (ty, v) ∈ listed xX.E (rootVal pDH) [[0, 3, 1], [0, 4, 1, 1]] := h2
  rw [pListed] at h4
  cases List.mem_singleton.mp h4
  exact ⟨rfl, rfl⟩

theorem pInner (rnd : Nat → Text) : InnerOk metaTypes classOf xG (pE rnd) .config "803".toList xF xNm pDH := by
  have h3 : listPaths (pE rnd).groups .config (rootVal pDH) = some [[0, 3, 1], [0, 4, 1, 1]] := pPaths _ (.inl rfl)
  have hps : ∀ p ∈ [[0, 3, 1], [0, 4, 1, 1]], (p = [0, 3, 1] ∨ p = [0, 4, 1, 1]) := by
    intro p hp
    simpa using hp
  have hin : ∀ {con' ty' v'}, Inside classOf xX.E xF xS (.str ['a']) con' ty' v' → (ty' = xT ∧ v' = .str ['b']) ∨ (ty' = xC ∧ v' = xCmd xHC) :=
    fun h => (xInside h).1 rfl rfl
  refine ⟨?_, ?_, ?_, (fun h => by cases h), ?_, fun _ => ⟨C61_types_distinct.2, ?_⟩⟩
  · intro ps hp
    rw [h3] at hp
    cases hp
    refine ⟨?_, ?_⟩
    · intro p hp
      rcases hps p hp with rfl | rfl
      · rw [pSlots.1]; decide +kernel
      · rw [pSlots.2]
        show _ = some (Val.str (V8.Dec.showNat 1))
        decide +kernel
    · intro p hp s hs
      rcases hps p hp with rfl | rfl
      · rw [pSlots.1] at hs; cases hs
      · rw [pSlots.2] at hs
        cases List.mem_singleton.mp hs
        exact one_tidy xX.E _ xS _ (by decide +kernel) (by decide +kernel) (by decide)
  · intro ty v h
    obtain ⟨rfl, rfl⟩ := pIn h
    exact xFitS _
  · intro ty v con' ty' v' h hi
    obtain ⟨rfl, rfl⟩ := pIn h
    rcases hin hi with ⟨rfl, rfl⟩ | ⟨rfl, rfl⟩
    · exact xFitT _
    · exact xFitC _
  · intro _ ps hp p hp' s hs
    rw [h3] at hp
    cases hp
    rcases hps p hp' with rfl | rfl
    · rw [pSlots.1] at hs; cases hs
    · rw [pSlots.2] at hs
      cases List.mem_singleton.mp hs
      exact one_order _ _ _ _
  · intro ty v h
    obtain ⟨rfl, rfl⟩ := pIn h
    refine ⟨xAutoS, ?_⟩
    intro con' ty' v' hi
    rcases hin hi with ⟨rfl, rfl⟩ | ⟨rfl, rfl⟩
    · exact xAutoT
    · exact xAutoC

/-- the files of the nested objects -/
theorem pNested (rnd : Nat → Text) : ∀ m, NestedNames classOf (pE rnd) .config xF pDH m → m ∈ [['a'], dot ['a'] "0".toList, ['b'], dot ['b'] "0".toList, dot ['c'] "2".toList] := by
  have oS : own classOf xS (.str ['a']) = [['a'], dot ['a'] "0".toList] := by unfold own; rw [xcS]; decide +kernel
  have oT : own classOf xT (.str ['b']) = [['b'], dot ['b'] "0".toList] := by unfold own; rw [xcT]; decide +kernel
  have oC : own classOf xC (xCmd xHC) = [dot ['c'] "2".toList] := by unfold own; rw [xcC]; decide +kernel
  rintro m ⟨ty, v, h, hm⟩
  obtain ⟨rfl, rfl⟩ := pIn h
  rcases hm with hm | ⟨con', ty', v', hi, hm⟩
  · rw [oS] at hm
    simp only [List.mem_cons, List.not_mem_nil, or_false] at hm ⊢
    rcases hm with h | h
    · exact .inl h
    · exact .inr (.inl h)
  · rcases (xInside hi).1 rfl rfl with ⟨rfl, rfl⟩ | ⟨rfl, rfl⟩
    · rw [oT] at hm
      simp only [List.mem_cons, List.not_mem_nil, or_false] at hm ⊢
      rcases hm with h | h
      · exact .inr (.inr (.inl h))
      · exact .inr (.inr (.inr (.inl h)))
    · rw [oC] at hm
      simp only [List.mem_cons, List.not_mem_nil, or_false] at hm ⊢
      exact .inr (.inr (.inr (.inr hm)))

/-- the configuration: extraction on Windows with auto_include and the prefix `ОО_`, build on Unix, any order of the workers, any random
identifiers; `versions` is new, `a.77` is lost, the module of the command inside the table of the source comes back -/
example (rnd : Nat → Text) (ord : Text → List Entry → List Entry) (shuf : List Text → List Text) (hord : ∀ id l, (ord id l).Perm l)
    (hshuf : ∀ l, (shuf l).Perm l) : ∃ dir files names,
      extractProduct (pE rnd) (handlers classOf xG xX xY "803".toList) .config "803".toList xF (0 + 1 + 1 + 1) = some (pInfo, dir) ∧
      buildProduct (pE rnd) (fun v p => handlers classOf xG xX { xY with prod := p } v) ord shuf "f".toList dir = some (.config, files) ∧
      names.Perm (files.map (·.1)) ∧
      (∀ nd, ("versions".toList, nd) ∈ files ↔ nd = .file (braceFile false (versionsTree rnd names))) ∧
      (∀ nd, (dot ['c'] "2".toList, nd) ∈ files ↔ nd = .file (utf8 "Процедура Открыть()\n".toList)) := by
  obtain ⟨dir, hx⟩ := pExtract rnd
  obtain ⟨files, names, h1, h2, h3⟩ := C62_product metaTypes classOf xG (pE rnd) .config "803".toList xF ord shuf xNm _ pInfo dir "f".toList ['h'] ['p'] pRoot pDH
    C61_classes rfl rfl rfl rfl rfl C62_no_extension_type C62_same_version hord hshuf (pDetect rnd) hx (pProduct rnd _) (pInner rnd)
  have iT : Inside classOf xX.E xF xS (.str ['a']) _ xT (.str ['b']) := .listed xcS xFa xrS rfl rfl (by rw [xlS]; exact List.mem_cons_self)
  have iC : Inside classOf xX.E xF xT (.str ['b']) _ xC (xCmd xHC) := .listed xcT xFb xrT rfl rfl (by rw [xlT]; exact List.mem_cons_self)
  have oS : own classOf xS (.str ['a']) = [['a'], dot ['a'] "0".toList] := by unfold own; rw [xcS]; decide +kernel
  have oT : own classOf xT (.str ['b']) = [['b'], dot ['b'] "0".toList] := by unfold own; rw [xcT]; decide +kernel
  have oC : own classOf xC (xCmd xHC) = [dot ['c'] "2".toList] := by unfold own; rw [xcC]; decide +kernel
  have hI : InProduct (pE rnd) .config pDH xS (.str ['a']) := ⟨_, pPaths _ (.inl rfl), by
    show _ ∈ listed xX.E (rootVal pDH) _
    rw [pListed]; exact List.mem_cons_self⟩
  have hnest := pNested rnd
  refine ⟨dir, files, names, hx, h1, h2 (by decide), ?_, ?_⟩
  · intro nd
    rw [h3]
    constructor
    · rintro (⟨h, _⟩ | ⟨h, _⟩ | ⟨_, _, h⟩ | ⟨h, _⟩)
      · exact absurd (hnest _ h) (by decide +kernel)
      · exact absurd h (by decide +kernel)
      · exact h
      · cases h
    · rintro rfl
      exact .inr (.inr (.inl ⟨by decide, rfl, rfl⟩))
  · intro nd
    rw [h3]
    constructor
    · rintro (⟨_, h⟩ | ⟨h, _⟩ | ⟨_, h, _⟩ | ⟨h, _⟩)
      · rw [xFc] at h
        cases h
        rfl
      · exact absurd h (by decide +kernel)
      · exact absurd h (by decide)
      · cases h
    · rintro rfl
      exact .inl ⟨⟨xS, .str ['a'], hI, .inr ⟨_, _, _, .deeper iT iC, by rw [oC]; exact List.mem_cons_self⟩⟩, xFc⟩

/-- the two groups of the configuration make one folder, and it is made once -/
example (rnd : Nat → Text) : ([[0, 3, 1], [0, 4, 1, 1]].flatMap (foldersAt (pE rnd).x.E (rootVal pDH))).Nodup := by
  obtain ⟨src, h⟩ := pRootOut rnd
  refine C62_one_list_per_type (pE rnd) .config "803".toList xF _ _ _ ['h'] _ _ _ h pn1 (by decide +kernel) pn4 ?_ (pPaths _ (.inl rfl))
  intro tok ht
  have h2 : getAt (rootVal pDH) ((kindOf .config).head ++ [2]) = some (.str "\"Склад\"".toList) := by decide +kernel
  rw [h2] at ht
  cases ht
  rw [show (pE rnd).x.p = "ОО_".toList from rfl]
  decide +kernel

/-- with the prefix `Ск` the name of the product becomes `лад` -/
example : ∃ info h', decodeHeader xX.valid "Ск".toList false pHead = .ok (info, h') ∧ info.name = "лад".toList := by
  have h : ∃ r, decodeHeader xX.valid "Ск".toList false pHead = .ok r := ⟨(_, _), by rfl⟩
  obtain ⟨⟨info, h'⟩, hr⟩ := h
  exact ⟨info, h', hr, (C62_prefix_taken_off xX.valid "Ск".toList "лад".toList pHead h' info "\"Склад\"".toList (by decide) rfl (by decide +kernel) hr).2⟩

end V8.Root
