import Verif.Props.DescribeRound
import Verif.Props.FoldersEx
import Verif.Props.EditEx
/-
Examples for C83: in the configuration of C82 the description of a common module is edited.
-/
namespace V8.Describe
open V8.Brace V8.Enc V8.JsonText V8.Header V8.Store V8.Tree V8.Product
open V8.Nested hiding Handler Env
open V8.Object hiding Cls
open V8.Misc (Cls)
open V8.Root (headOf PartsOk pE pInfo Apart listPaths takeLists need directives besideOut otherOut compatOut kindOf strOf config rootName filePath rootOut conOut typeName metaGroups extractProduct detect ProductOk InnerOk InProduct)
open V8.Edit (EditedAt put put_same put_other at_file)
open V8.Folders

variable {two : Bool}

/-! ### the edits -/

theorem zGood : Good zKM := C61_classes.file _ _ .none _ zcM rfl

theorem file_in {src : List (Place Bytes)} {n : Text} {b : Bytes} (h : folder src n = some b) : fileIn (folder (nodes src)) n = some b := by
  unfold fileIn
  rw [at_file.mpr h]

theorem put_in (n : Text) (b : Bytes) (src : List (Place Node)) : fileIn (folder (put n b src)) n = some b := by
  unfold fileIn
  rw [put_same]

theorem put_rest (n : Text) (b : Bytes) (src : List (Place Node)) : ∀ m, m ≠ n → fileIn (folder (put n b src)) m = fileIn (folder src) m := by
  intro m hm
  unfold fileIn
  rw [put_other _ _ _ _ hm]

theorem more {ks : List Text} {j j' : JT} (a : Text) (h : SameBut [a] j j') (ha : a ∈ ks) : SameBut ks j j' := h.more (fun k hk => by rw [List.mem_singleton.mp hk]; exact ha)

/-- the description of an extracted module with another name -/
theorem zRename {x : Ext} {u : Text} {info : Info} {src : List (Place Bytes)} (n : Text) (h : extractAll x zKM (some "803".toList) (zF two) u = some (info, [], src)) :
    ∃ b, NameEdit zKM info.uuid n (folder (nodes src)) (folder (put (objName zKM.name) b (nodes src))) := by
  obtain ⟨bi, jid, bo, j, root, h1, h2, h3, h4, h5, _, _, h8, _⟩ := describable zGood h
  obtain ⟨b, j', g1, g2, g3⟩ := h8 n
  exact ⟨b, ⟨bi, jid, at_file.mpr h1, h2, h3⟩, j, j', ⟨put_rest _ _ _, ⟨bo, file_in h4, h5⟩, ⟨b, put_in _ _ _, g1⟩, more _ g2 List.mem_cons_self⟩, g3⟩

/-- the description of an extracted module with another value behind the header -/
theorem zValue {x : Ext} {info : Info} {src : List (Place Bytes)} (w : Val) (h : extractAll x zKM (some "803".toList) (zF two) ['d'] = some (info, [], src)) :
    ∃ b, HeaderEdit classOf info.uuid [0, 2] w zM (folder (nodes src)) (folder (put (objName zKM.name) b (nodes src))) := by
  obtain ⟨bi, jid, bo, j, root, h1, h2, h3, h4, h5, _, h7, _, h9, h10⟩ := describable zGood h
  obtain ⟨b0, d, e1, e2, e3⟩ := h10 rfl rfl
  rw [zFd] at e1
  cases e1
  cases zrD.symm.trans e2
  have hget : getAt root [0, 2] = some (.str ['0']) := (e3 [0, 2] ⟨by decide, by decide⟩).trans (by decide +kernel)
  obtain ⟨root', hr⟩ := setAt_some [0, 2] root _ w hget
  obtain ⟨b, j', g1, g2, g3⟩ := h9 root'
  refine ⟨b, zKM, zcM, rfl, rfl, ⟨⟨by decide, by decide⟩, ⟨by decide, by decide⟩, ⟨by decide, by decide⟩, ⟨0, 2, [], rfl⟩, fun h => by cases h⟩, fun _ => ⟨by decide, by decide⟩, ⟨bi, jid, at_file.mpr h1, h2, h3⟩, j, j', root, root',
    ⟨put_rest _ _ _, ⟨bo, file_in h4, h5⟩, ⟨b, put_in _ _ _, g1⟩, more _ g2 List.mem_cons_self⟩, h7, g3, hr⟩

/-! ### with auto_include -/

theorem zSteps (rnd : Nat → Text) : ∃ src s1 s2, extractAll xX zKM (some "803".toList) (zF two) ['d'] = some (zID, [], s1) ∧ extractAll xX zKM (some "803".toList) (zF two) ['e'] = some (zIE, [], s2) ∧
    extractProduct (pE rnd) (handlers classOf xG xX xY "803".toList) .config "803".toList (zF two) (0 + 1) = some (pInfo, .mk src (.ofList (zFolders two (.mk (nodes s1) .nil) (.mk (nodes s2) .nil)))) := by
  obtain ⟨s1, e1⟩ := zeD (two := two)
  obtain ⟨s2, e2⟩ := zeE (two := two)
  obtain ⟨src, t1, t2, k1, k2, hx⟩ := zExtracted (two := two) rnd
  obtain ⟨_, a1⟩ := zTree ⟨s1, e1⟩ (conOut .config (zF two))
  have h0 : handlers classOf xG xX xY "803".toList zM = some (handlerOf xG xX xY "803".toList (.file zKM)) := by unfold handlers; rw [zcM, Option.map_some]
  have o1 : (handlerOf xG xX xY "803".toList (.file zKM)).out (conOut .config (zF two)) (zF two) (.str ['d']) = some (zID, [], nodes s1) := by rw [file_out, e1, Option.map_some]
  have o2 : (handlerOf xG xX xY "803".toList (.file zKM)).out (conOut .config (zF two)) (zF two) (.str ['e']) = some (zIE, [], nodes s2) := by rw [file_out, e2, Option.map_some]
  have r1 := tree_step (F := zF two) (n := 0) (con := conOut .config (zF two)) (subs := []) h0 o1 (by rw [extractKids]) .nil
  have r2 := tree_step (F := zF two) (n := 0) (con := conOut .config (zF two)) (subs := []) h0 o2 (by rw [extractKids]) .nil
  have q1 := k1.symm.trans r1
  have q2 := k2.symm.trans r2
  simp only [Option.some.injEq, Prod.mk.injEq, V8.Tree.Dir.mk.injEq, true_and] at q1 q2
  refine ⟨src, s1, s2, e1, e2, ?_⟩
  rw [hx, q1.1, q2.1]

/-- the value behind the header of the first module becomes 5: its file has the 5, every other file is the same -/
example (rnd : Nat → Text) (ord : Text → List Entry → List Entry) (shuf : List Text → List Text) (hord : ∀ id l, (ord id l).Perm l) (hshuf : ∀ l, (shuf l).Perm l) :
    ∃ dir dir' files files', extractProduct (pE rnd) (handlers classOf xG xX xY "803".toList) .config "803".toList (zF true) (0 + 1) = some (pInfo, dir) ∧
      V8.Root.buildProduct (pE rnd) (fun v p => handlers classOf xG xX { xY with prod := p } v) ord shuf "f".toList dir = some (.config, files) ∧
      V8.Root.buildProduct (pE rnd) (fun v p => handlers classOf xG xX { xY with prod := p } v) ord shuf "f".toList dir' = some (.config, files') ∧
      OnlyValue false ['d'] [0, 2] (.str ['5']) files files' := by
  obtain ⟨src, s1, s2, e1, e2, hx⟩ := zSteps (two := true) rnd
  obtain ⟨b, he⟩ : ∃ b, HeaderEdit classOf ['d'] [0, 2] (.str ['5']) zM (folder (nodes s1)) (folder (put (objName zKM.name) b (nodes s1))) := zValue (.str ['5']) e1
  obtain ⟨files, files', _, a1, a2, a3, _⟩ := C83_extract_header_build metaTypes classOf xG (pE rnd) .config "803".toList (zF true) ord shuf zNm (0 + 1) pInfo src
    [] [(zM, zIE.name, .mk (nodes s2) .nil)] zM zID.name (.mk (nodes s1) .nil) (.mk (put (objName zKM.name) b (nodes s1)) .nil) "f".toList ['h'] ['p'] pRoot (zDH true) ['d'] [0, 2] (.str ['5'])
    C61_classes rfl rfl rfl rfl rfl V8.Root.C62_no_extension_type V8.Root.C62_same_version hord hshuf (zDetect rnd) hx (zProduct rnd _) (zInner rnd) (EditedAt.here he)
  exact ⟨_, _, files, files', hx, a1, a2, a3⟩

/-- the second module gets another name: both products are the same one with the files of this module, and its identifier once in the list -/
example (rnd : Nat → Text) (ord : Text → List Entry → List Entry) (shuf : List Text → List Text) (hord : ∀ id l, (ord id l).Perm l) (hshuf : ∀ l, (shuf l).Perm l) :
    ∃ (dir dir' : V8.Tree.Dir) (files files' base fX fX' : List (Text × Node)) (d0 d' : List (List Val)) (U : Text) (v : Val), extractProduct (pE rnd) (handlers classOf xG xX xY "803".toList) .config "803".toList (zF true) (0 + 1) = some (pInfo, dir) ∧
      V8.Root.buildProduct (pE rnd) (fun v p => handlers classOf xG xX { xY with prod := p } v) ord shuf "f".toList dir = some (.config, files) ∧
      V8.Root.buildProduct (pE rnd) (fun v p => handlers classOf xG xX { xY with prod := p } v) ord shuf "f".toList dir' = some (.config, files') ∧
      OnlyName false ['e'] zKM.cls.path ("ОО_".toList ++ "Гамма".toList) fX fX' ∧ GrownBy .config false rnd fX ['h'] d0 (zDH true) base files ∧ GrownBy .config false rnd fX' ['h'] d0 d' base files' ∧
      OneMore U v (rootVal d0) (rootVal (zDH true)) ∧ OneMore U v (rootVal d0) (rootVal d') := by
  obtain ⟨src, s1, s2, e1, e2, hx⟩ := zSteps (two := true) rnd
  obtain ⟨b, he⟩ : ∃ b, NameEdit zKM ['e'] "Гамма".toList (folder (nodes s2)) (folder (put (objName zKM.name) b (nodes s2))) := zRename "Гамма".toList e2
  obtain ⟨files, files', base, fX, fX', d0, d', U, v, a1, a2, a3, _, _, a6, a7, a8, a9, _⟩ := C83_extract_rename_build_auto metaTypes classOf xG (pE rnd) .config "803".toList (zF true) ord shuf zNm (0 + 1) pInfo src
    [(zM, zID.name, .mk (nodes s1) .nil)] [] zM zIE.name (nodes s2) (put (objName zKM.name) b (nodes s2)) .nil zKM "f".toList ['h'] ['p'] pRoot (zDH true) ['e'] "Гамма".toList
    C61_classes rfl rfl rfl rfl rfl rfl V8.Root.C62_no_extension_type V8.Root.C62_same_version hord hshuf (zDetect rnd) hx (zProduct rnd _) (zInner rnd) zcM he (List.cons_ne_nil _ _) (by
      intro q hq _
      rw [List.mem_singleton.mp hq]
      show zID.name ≠ "Гамма".toList
      decide +kernel)
  exact ⟨_, _, files, files', base, fX, fX', d0, d', U, v, hx, a1, a2, a3, a6, a7, a8, a9⟩

/-! ### without auto_include -/

def nX : Ext := { xX with auto := false }
def nY : Bld := { xY with auto := false }
def nE (rnd : Nat → Text) : V8.Root.Env := { pE rnd with x := nX, y := nY }


theorem nTaken : ∃ l, takeLists nX.E false [] [[0, 3, 1]] (rootVal (zDH true)) = some (l, zObjs true) := by
  have h : (takeLists nX.E false [] [[0, 3, 1]] (rootVal (zDH true))).map (·.2) = some (zObjs true) := by decide +kernel
  rw [Option.map_eq_some_iff] at h
  obtain ⟨⟨l, os⟩, h1, h2⟩ := h
  exact ⟨l, by rw [h1]; exact congrArg (fun z => some (l, z)) h2⟩

theorem nRootOut (rnd : Nat → Text) : ∃ src, rootOut (nE rnd) .config "803".toList (zF true) = some (pInfo, zObjs true, src) := by
  obtain ⟨l, hl⟩ := nTaken
  obtain ⟨r, hr⟩ := zPartsOut (two := true)
  have h1 : getAt (rootVal pRoot) [0, 1] = some (.str ['h']) := by decide +kernel
  have h2 : getAt (rootVal (zDH true)) config.head = some (.list pHead) := by decide +kernel
  have h3 : decodeHeader nX.valid nX.p false pHead = .ok (pInfo, pHead) := by decide +kernel
  have h4 : setAt (rootVal (zDH true)) config.head (.list pHead) = some (rootVal (zDH true)) := setAt_getAt _ _ _ h2
  have h5 : getAt (rootVal (zDH true)) V8.Product.compatConf = some (.str "80316".toList) := by decide +kernel
  have hd : directives .config "803".toList = false := by decide +kernel
  obtain ⟨b, hb⟩ : ∃ b, besideOut (nE rnd) .config "803".toList (zF true) (rootVal pRoot) ['h'] pInfo.uuid (rootVal (zDH true)) = some b := by
    unfold besideOut
    rw [hd]
    have ho : otherOut .config (nE rnd).tool (zF true) pInfo.uuid = some [("version".toList, some (jsonOf (rootVal pVersion))), ("versions".toList, some (jsonOf (rootVal pVersions)))] := by
      simp only [otherOut, zn2, zn3, Option.bind_some, Option.map_some]
    have hc : compatOut (kindOf .config) (rootVal (zDH true)) = some [("compatibility_version".toList, some (jsonOf (.str "80316".toList)))] := by
      unfold compatOut
      rw [show (kindOf Cls.config).compat = some V8.Product.compatConf from rfl]
      simp only [h5, Option.map_some]
    have hp : V8.Root.partsOut (nE rnd).x.win (kindOf .config) false (zF true) pInfo.uuid = some r := hr
    rw [ho, hc, hp]
    exact ⟨_, rfl⟩
  have hr1 : need (zF true) (rootName .config) = some (rootVal pRoot) := zn1
  have hr2 : getAt (rootVal pRoot) (filePath .config) = some (.str ['h']) := h1
  have hr3 : getAt (rootVal (zDH true)) (kindOf .config).head = some (.list pHead) := h2
  have hr4 : setAt (rootVal (zDH true)) (kindOf .config).head (.list pHead) = some (rootVal (zDH true)) := h4
  have hr5 : decodeHeader (nE rnd).x.valid (nE rnd).x.p false pHead = .ok (pInfo, pHead) := h3
  have hr6 : takeLists (nE rnd).x.E (nE rnd).x.auto [] [[0, 3, 1]] (rootVal (zDH true)) = some (l, zObjs true) := hl
  have hr7 : listPaths (nE rnd).groups .config (rootVal (zDH true)) = some [[0, 3, 1]] := zPaths
  unfold rootOut
  rw [hr1, Option.bind_some, hr2, Option.bind_some, strOf, Option.bind_some, zn4, Option.bind_some, hr3, Option.bind_some, V8.Root.listOf, Option.bind_some, hr5,
    Except.toOption, Option.bind_some, hr4, Option.bind_some, hb, Option.bind_some, hr7, Option.bind_some, hr6, Option.map_some]
  exact ⟨_, rfl⟩


theorem nExtract (u : Text) (hd h' : List Val) (info : Info) (hok : CodeOk false false (zF true (dot u "0".toList))) (hF : zF true u = some (.file (braceFile false (zObj hd))))
    (hb : braceRead (braceFile false (zObj hd)) = some (zObj hd)) (hh : decodeHeader nX.valid nX.p true hd = .ok (info, h')) (hu : info.uuid = u) :
    ∃ src, extractAll nX zKM (some "803".toList) (zF true) u = some (info, [], src) := by
  obtain ⟨st, hst⟩ := storedOf_ok hok
  obtain ⟨p, hp⟩ : ∃ p, V8.Store.partsOut true zKM (zF true) u = some p := by
    unfold V8.Store.partsOut
    rw [show zKM.codes = [("obj".toList, "0".toList)] from rfl, show zKM.help = none from rfl, show zKM.blobs = [] from rfl, show zKM.info = none from rfl, V8.Store.helpOut, Option.bind_some,
      blobsOut, Option.bind_some, codesOut, codesOut, codeOut, hst, infoOut]
    exact ⟨_, rfl⟩
  have he := fun extra => extract_of nX zKM.cls (some "803".toList) extra _ (zObj hd) hd h' info (rootVal (zObj h')) (rootVal (zObj h')) [] hb rfl hh rfl rfl (.inl rfl)
  unfold extractAll
  rw [hF]
  simp only [he, Option.bind_some]
  have hp' : V8.Store.partsOut nX.win zKM (zF true) info.uuid = some p := by rw [hu]; exact hp
  rw [hp']
  exact ⟨_, rfl⟩


theorem neD : ∃ src, extractAll nX zKM (some "803".toList) (zF true) ['d'] = some (zID, [], src) :=
  nExtract ['d'] zHD ((xSep zHD).set 2 (.str "\"Альфа\"".toList)) zID zokD zFd zrD (by decide +kernel) rfl
theorem neE : ∃ src, extractAll nX zKM (some "803".toList) (zF true) ['e'] = some (zIE, [], src) :=
  nExtract ['e'] zHE ((xSep zHE).set 2 (.str "\"Бета\"".toList)) zIE zokE zFe zrE (by decide +kernel) rfl

theorem nSteps (rnd : Nat → Text) : ∃ src s1 s2, extractAll nX zKM (some "803".toList) (zF true) ['d'] = some (zID, [], s1) ∧ extractAll nX zKM (some "803".toList) (zF true) ['e'] = some (zIE, [], s2) ∧
    extractProduct (nE rnd) (handlers classOf xG nX nY "803".toList) .config "803".toList (zF true) (0 + 1) = some (pInfo, .mk src (.ofList [(zM, zID.name, .mk (nodes s1) .nil), (zM, zIE.name, .mk (nodes s2) .nil)])) := by
  obtain ⟨src, h1⟩ := nRootOut rnd
  obtain ⟨s1, e1⟩ := neD
  obtain ⟨s2, e2⟩ := neE
  have h0 : handlers classOf xG nX nY "803".toList zM = some (handlerOf xG nX nY "803".toList (.file zKM)) := by unfold handlers; rw [zcM, Option.map_some]
  have o1 : (handlerOf xG nX nY "803".toList (.file zKM)).out (conOut .config (zF true)) (zF true) (.str ['d']) = some (zID, [], nodes s1) := by rw [file_out, e1, Option.map_some]
  have o2 : (handlerOf xG nX nY "803".toList (.file zKM)).out (conOut .config (zF true)) (zF true) (.str ['e']) = some (zIE, [], nodes s2) := by rw [file_out, e2, Option.map_some]
  have r1 := tree_step (F := zF true) (n := 0) (con := conOut .config (zF true)) (subs := []) h0 o1 (by rw [extractKids]) .nil
  have r2 := tree_step (F := zF true) (n := 0) (con := conOut .config (zF true)) (subs := []) h0 o2 (by rw [extractKids]) .nil
  refine ⟨nodes src, s1, s2, e1, e2, ?_⟩
  have hk : extractKids (extractTree (handlers classOf xG nX nY "803".toList) (zF true) (0 + 1) (conOut .config (zF true))) (zObjs true) =
      some [(zM, zID.name, .mk (nodes s1) (.ofList [])), (zM, zIE.name, .mk (nodes s2) (.ofList []))] := by
    have := one_kid (o := ⟨zM, ['e'], .str ['e']⟩) r2
    unfold zObjs
    rw [if_pos rfl, extractKids]
    simp only [r1, this, Option.bind_some, Option.map_some]
  have hn : ([(zM, zID.name, V8.Tree.Dir.mk (nodes s1) (.ofList [])), (zM, zIE.name, .mk (nodes s2) (.ofList []))].map (fun s => (s.1, s.2.1))).Nodup := by
    show [(zM, zID.name), (zM, zIE.name)].Nodup
    decide +kernel
  unfold extractProduct
  rw [h1, Option.bind_some]
  simp only
  rw [hk, Option.bind_some, if_pos hn]
  rfl

theorem nDetect (rnd : Nat → Text) : detect (nE rnd) (zF true) = some (.config, "803".toList) := zDetect rnd

theorem nProduct (rnd : Nat → Text) (file : Text) : ProductOk (nE rnd) .config "803".toList (zF true) file ['h'] ['p'] pRoot (zDH true) := by
  have hd : directives .config "803".toList = false := by decide +kernel
  have hh : V8.Root.headOf .config (zDH true) = pHead := by decide +kernel
  refine ⟨zF1, by decide, V8.Root.pw1, by decide +kernel, (fun h => by cases h), zF4, by decide, zw4, by rw [hh]; decide +kernel, ?_, ?_,
    (fun _ => ⟨_, zF2, by decide, V8.Root.pw2⟩), (fun h => by cases h), (fun h => by cases h), by rw [hd]; exact zParts, fun _ => rfl, (fun h => by cases h),
    (fun h => by cases h)⟩
  · intro tok ht
    rw [hh] at ht
    cases ht
    rw [show (nE rnd).x.p = "ОО_".toList from rfl]
    decide +kernel
  · intro _
    decide +kernel

theorem nFit (u : Text) (hd : List Val) (con : Option Text) (hF : zF true u = some (.file (braceFile false (zObj hd)))) (hw : WFFile (zObj hd)) (hh : headerOf zKM.cls (zObj hd) = hd)
    (hu : uuidAt hd = some u) (hp : PrefixOk "ОО_".toList "Configuration".toList hd) (h0 : CodeOk false false (zF true (dot u "0".toList))) (y : Bld) (hy : y.win = false) (hz : y.prod = []) :
    Fit classOf xG nX y (zF true) con "Configuration".toList zM (.str u) := by
  unfold Fit
  rw [zcM]
  refine ⟨u, zObj hd, zKM, rfl, rfl, by rw [hy]; exact hF, List.cons_ne_nil _ _, hw, by rw [hh]; exact hu, by rw [hh]; exact hp, (fun h => by cases h), (fun _ => .inl hz), ?_,
    (fun s hs => by cases hs), (fun s hs => by cases hs)⟩
  intro c hc
  cases List.mem_singleton.mp hc
  rw [hy]
  exact h0

theorem nFitD (con : Option Text) (y : Bld) (hy : y.win = false) (hz : y.prod = []) : Fit classOf xG nX y (zF true) con "Configuration".toList zM (.str ['d']) := by
  refine nFit ['d'] zHD con zFd zwD (by decide +kernel) (by decide +kernel) ⟨"ОО_Альфа".toList, by decide +kernel, ?_⟩ zokD y hy hz
  rw [if_pos (by decide +kernel)]
  exact ⟨"Альфа".toList, by decide⟩
theorem nFitE (con : Option Text) (y : Bld) (hy : y.win = false) (hz : y.prod = []) : Fit classOf xG nX y (zF true) con "Configuration".toList zM (.str ['e']) := by
  refine nFit ['e'] zHE con zFe zwE (by decide +kernel) (by decide +kernel) ⟨"ОО_Бета".toList, by decide +kernel, ?_⟩ zokE y hy hz
  rw [if_pos (by decide +kernel)]
  exact ⟨"Бета".toList, by decide⟩

theorem nInner (rnd : Nat → Text) : InnerOk metaTypes classOf xG (nE rnd) .config "803".toList (zF true) zNm (zDH true) := by
  obtain ⟨a, b, c, d, _, _⟩ := zInner (two := true) rnd
  refine ⟨a, ?_, ?_, ?_, (fun h => by cases h), (fun h => by cases h)⟩
  · intro ty v h
    obtain ⟨rfl, rfl | rfl⟩ := zIn (rnd := rnd) h
    · exact nFitD _ _ rfl rfl
    · exact nFitE _ _ rfl rfl
  · intro ty v con' ty' v' h hi
    exact absurd (zIn (rnd := rnd) h).1 (zInside hi)
  · intro _ ty v h
    obtain ⟨_, rfl | rfl⟩ := zIn (rnd := rnd) h <;> exact ⟨_, rfl⟩

/-- without auto_include: the second module gets another name: its file has it, with the prefix, and every other file is the same -/
example (rnd : Nat → Text) (ord : Text → List Entry → List Entry) (shuf : List Text → List Text) (hord : ∀ id l, (ord id l).Perm l) (hshuf : ∀ l, (shuf l).Perm l) :
    ∃ (dir dir' : V8.Tree.Dir) (files files' : List (Text × Node)), extractProduct (nE rnd) (handlers classOf xG nX nY "803".toList) .config "803".toList (zF true) (0 + 1) = some (pInfo, dir) ∧
      V8.Root.buildProduct (nE rnd) (fun v p => handlers classOf xG nX { nY with prod := p } v) ord shuf "f".toList dir = some (.config, files) ∧
      V8.Root.buildProduct (nE rnd) (fun v p => handlers classOf xG nX { nY with prod := p } v) ord shuf "f".toList dir' = some (.config, files') ∧
      OnlyName false ['e'] zKM.cls.path ("ОО_".toList ++ "Гамма".toList) files files' := by
  obtain ⟨src, s1, s2, e1, e2, hx⟩ := nSteps rnd
  obtain ⟨b, he⟩ : ∃ b, NameEdit zKM ['e'] "Гамма".toList (folder (nodes s2)) (folder (put (objName zKM.name) b (nodes s2))) := zRename "Гамма".toList e2
  obtain ⟨files, files', _, a1, a2, a3, _⟩ := C83_extract_rename_build metaTypes classOf xG (nE rnd) .config "803".toList (zF true) ord shuf zNm (0 + 1) pInfo src
    [(zM, zID.name, .mk (nodes s1) .nil)] [] zM zIE.name (nodes s2) (put (objName zKM.name) b (nodes s2)) .nil zKM "f".toList ['h'] ['p'] pRoot (zDH true) ['e'] "Гамма".toList
    C61_classes rfl rfl rfl rfl rfl rfl V8.Root.C62_no_extension_type V8.Root.C62_same_version hord hshuf (nDetect rnd) hx (nProduct rnd _) (nInner rnd) zcM he
  exact ⟨_, _, files, files', hx, a1, a2, a3⟩
end V8.Describe
