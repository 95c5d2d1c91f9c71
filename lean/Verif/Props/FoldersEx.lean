import Verif.Props.FoldersRound
import Verif.Props.RootEx
/-
Examples for C82: a configuration with two common modules, of which one is removed; a configuration with one, to which another one is added.
-/
namespace V8.Folders
open V8.Brace V8.Enc V8.JsonText V8.Header V8.Store V8.Tree V8.Product
open V8.Nested hiding Handler Env
open V8.Object hiding Cls
open V8.Misc (Cls)
open V8.Root (pE metaGroups typeName pInfo codes_run files_run listPaths takeLists slotsAt need need_file detect PartsOk ProductOk InnerOk InProduct config kindOf rootOut directives besideOut otherOut compatOut
  strOf imagesOut imageKey rootName filePath extractProduct buildProduct headOf listed conOut)

def zM : Text := "CommonModule".toList
def zKM : Kind := kind "CommonModule" [1] false [("obj", "0")] none [] none
def zObj (h : List Val) : List (List Val) := [[.str ['3'], .list [.str ['1'], .list h], .str ['0']]]
def zHD : List Val := xHead ['d'] "\"ОО_Альфа\"".toList
def zHE : List Val := xHead ['e'] "\"ОО_Бета\"".toList

/-- the list of the modules -/
def zMods (l : List Val) : Val := .list (.str "0fe48980-252d-11d6-a3c7-0050bae0a776".toList :: .str (V8.Dec.showNat l.length) :: l)

def zTwo (two : Bool) : List Val := if two then [.str ['d'], .str ['e']] else [.str ['d']]

/-- the header of a configuration with one or two modules -/
def zConf (s : Val) : List (List Val) :=
  [[.str ['2'], .list [.str ['x']], .str ['1'], .list [.str "9cd510cd-abfc-11d4-9434-004095e12fc7".toList, .list [.str ['7'], pProps, .str ['1'], s]]]]
def zDH (two : Bool) : List (List Val) := zConf (zMods (zTwo two))

noncomputable def zF (two : Bool) (n : Text) : Option Node :=
  if n = "root".toList then some (.file (braceFile false pRoot))
  else if n = "version".toList then some (.file (braceFile false pVersion))
  else if n = "versions".toList then some (.file (braceFile false pVersions))
  else if n = ['h'] then some (.file (braceFile false (zDH two)))
  else if n = ['d'] then some (.file (braceFile false (zObj zHD)))
  else if n = ['e'] then some (.file (braceFile false (zObj zHE)))
  else if n = dot ['e'] "0".toList then some (.file (utf8 "Процедура Открыть()\n".toList))
  else none

theorem zF_none {two : Bool} {n : Text} (h : n ∉ ["root".toList, "version".toList, "versions".toList, ['h'], ['d'], ['e'], dot ['e'] "0".toList]) : zF two n = none := by
  simp only [List.mem_cons, not_or] at h
  unfold zF
  rw [if_neg h.1, if_neg h.2.1, if_neg h.2.2.1, if_neg h.2.2.2.1, if_neg h.2.2.2.2.1, if_neg h.2.2.2.2.2.1, if_neg h.2.2.2.2.2.2.1]

variable {two : Bool}

theorem zF1 : zF two "root".toList = some (.file (braceFile false pRoot)) := by unfold zF; rw [if_pos rfl]
theorem zF2 : zF two "version".toList = some (.file (braceFile false pVersion)) := by unfold zF; rw [if_neg (by decide), if_pos rfl]
theorem zF3 : zF two "versions".toList = some (.file (braceFile false pVersions)) := by unfold zF; rw [if_neg (by decide), if_neg (by decide), if_pos rfl]
theorem zF4 : zF two ['h'] = some (.file (braceFile false (zDH two))) := by unfold zF; rw [if_neg (by decide), if_neg (by decide), if_neg (by decide), if_pos rfl]
theorem zFd : zF two ['d'] = some (.file (braceFile false (zObj zHD))) := by
  unfold zF; rw [if_neg (by decide), if_neg (by decide), if_neg (by decide), if_neg (by decide), if_pos rfl]
theorem zFe : zF two ['e'] = some (.file (braceFile false (zObj zHE))) := by
  unfold zF; rw [if_neg (by decide), if_neg (by decide), if_neg (by decide), if_neg (by decide), if_neg (by decide), if_pos rfl]
theorem zFd0 : zF two (dot ['d'] "0".toList) = none := zF_none (by decide)
theorem zFe0 : zF two (dot ['e'] "0".toList) = some (.file (utf8 "Процедура Открыть()\n".toList)) := by
  unfold zF; rw [if_neg (by decide), if_neg (by decide), if_neg (by decide), if_neg (by decide), if_neg (by decide), if_neg (by decide), if_pos rfl]

theorem zw4 : WFFile (zDH two) := by cases two <;> exact fileB_ok _ (by decide +kernel)
theorem zwD : WFFile (zObj zHD) := fileB_ok _ (by decide +kernel)
theorem zwE : WFFile (zObj zHE) := fileB_ok _ (by decide +kernel)
theorem zrD : braceRead (braceFile false (zObj zHD)) = some (zObj zHD) := C59_brace_file_round_trip false _ (by decide) zwD
theorem zrE : braceRead (braceFile false (zObj zHE)) = some (zObj zHE) := C59_brace_file_round_trip false _ (by decide) zwE

theorem zn1 : need (zF two) "root".toList = some (rootVal pRoot) := need_file zF1 (by decide) V8.Root.pw1
theorem zn2 : need (zF two) "version".toList = some (rootVal pVersion) := need_file zF2 (by decide) V8.Root.pw2
theorem zn3 : need (zF two) "versions".toList = some (rootVal pVersions) := need_file zF3 (by decide) V8.Root.pw3
theorem zn4 : need (zF two) ['h'] = some (rootVal (zDH two)) := need_file zF4 (by cases two <;> decide) zw4

theorem zFx : ∀ n ∈ ["configinfo".toList] ++ ["6", "7", "0", "5", "3", "2", "4", "9", "8", "10", "a", "b", "c", "d", "e", "f"].map (fun n => dot ['p'] n.toList),
    zF two n = none := by
  intro n hn
  have h1 : ∀ n ∈ ["configinfo".toList] ++ ["6", "7", "0", "5", "3", "2", "4", "9", "8", "10", "a", "b", "c", "d", "e", "f"].map (fun n => dot ['p'] n.toList),
    n ∉ ["root".toList, "version".toList, "versions".toList, ['h'], ['d'], ['e'], dot ['e'] "0".toList] := by decide +kernel
  exact zF_none (h1 n hn)

theorem zDetect (rnd : Nat → Text) : detect (pE rnd) (zF two) = some (.config, "803".toList) := by
  have h0 : V8.Misc.handler typeName (V8.Embed.truthy (rootVal pRoot)) (rootVal pVersion) (rootVal (zDH two)) none = some (.config, "803".toList) := by
    cases two <;> decide +kernel
  have h1 : getAt (rootVal pRoot) [0, 1] = some (.str ['h']) := by decide +kernel
  unfold detect
  rw [zF1, zFx "configinfo".toList (by decide)]
  simp only [zn1, zn2, h1, strOf, zn4, Option.bind_some, Option.map_some]
  exact h0

theorem zParts : PartsOk false config false (zF two) ['p'] := by
  have hx : ∀ n : Text, dot ['p'] n ∈ ["configinfo".toList] ++ ["6", "7", "0", "5", "3", "2", "4", "9", "8", "10", "a", "b", "c", "d", "e", "f"].map (fun n => dot ['p'] n.toList) →
    zF two (dot ['p'] n) = none := fun n h => zFx _ h
  refine ⟨?_, ?_, ?_, ?_, ?_⟩
  · intro s hs
    cases hs
    exact .inl (hx _ (by decide +kernel))
  · intro s hs
    cases hs
    exact .inl (hx _ (by decide +kernel))
  · have : ∀ n ∈ config.files, dot ['p'] n ∈ ["configinfo".toList] ++ ["6", "7", "0", "5", "3", "2", "4", "9", "8", "10", "a", "b", "c", "d", "e", "f"].map (fun n => dot ['p'] n.toList) := by
      decide +kernel
    exact fun n hn => .inl (hx n (this n hn))
  · have : ∀ c ∈ config.codes, dot ['p'] c.2 ∈ ["configinfo".toList] ++ ["6", "7", "0", "5", "3", "2", "4", "9", "8", "10", "a", "b", "c", "d", "e", "f"].map (fun n => dot ['p'] n.toList) := by
      decide +kernel
    exact fun c hc => .inl (hx _ (this c hc))
  · intro n hn
    cases hn

theorem zPartsOut : ∃ r, V8.Root.partsOut true config false (zF two) ['p'] = some r := by
  obtain ⟨c, hc⟩ := codes_run (w := true) (cd := false) (k := config.name) config.codes (zParts (two := two)).codes
  obtain ⟨f, hf⟩ := files_run (w := true) (k := config.name) config.files (zParts (two := two)).files
  have h1 : zF two (dot ['p'] "3".toList) = none := zFx _ (by decide +kernel)
  have h2 : zF two (dot ['p'] "2".toList) = none := zFx _ (by decide +kernel)
  have e1 : helpOut "help".toList (zF two) ['p'] config.help = some ([("help".toList, none)], [(dot "help".toList "html".toList, none), (dot "help".toList "bin".toList, none)]) := by
    show helpOut "help".toList (zF two) ['p'] (some "3".toList) = _
    rw [helpOut, fileAt, h1]
    rfl
  have e2 : imagesOut (zF two) ['p'] config.image = some ([(imageKey "Заставка".toList, none)], [("Заставка".toList, none)]) := by
    show imagesOut (zF two) ['p'] (some ("Заставка".toList, "2".toList)) = _
    rw [imagesOut, fileAt, h2]
    rfl
  unfold V8.Root.partsOut
  rw [e1, e2, hc, hf, Option.bind_some, Option.bind_some, Option.bind_some, Option.bind_some]
  exact ⟨_, rfl⟩

theorem zPaths : listPaths metaGroups .config (rootVal (zDH two)) = some [[0, 3, 1]] := by cases two <;> decide +kernel

def zObjs (two : Bool) : List Obj := if two then [⟨zM, ['d'], .str ['d']⟩, ⟨zM, ['e'], .str ['e']⟩] else [⟨zM, ['d'], .str ['d']⟩]

theorem zTaken : takeLists xX.E true [] [[0, 3, 1]] (rootVal (zDH two)) = some (.list ((zConf (.str zM)).map Val.list), zObjs two) := by cases two <;> decide +kernel

theorem zRootOut (rnd : Nat → Text) : ∃ src, rootOut (pE rnd) .config "803".toList (zF two) = some (pInfo, zObjs two, src) := by
  obtain ⟨r, hr⟩ := zPartsOut (two := two)
  have h1 : getAt (rootVal pRoot) [0, 1] = some (.str ['h']) := by decide +kernel
  have h2 : getAt (rootVal (zDH two)) config.head = some (.list pHead) := by cases two <;> decide +kernel
  have h3 : decodeHeader xX.valid xX.p false pHead = .ok (pInfo, pHead) := by decide +kernel
  have h4 : setAt (rootVal (zDH two)) config.head (.list pHead) = some (rootVal (zDH two)) := setAt_getAt _ _ _ h2
  have h5 : getAt (rootVal (zDH two)) V8.Product.compatConf = some (.str "80316".toList) := by cases two <;> decide +kernel
  have hd : directives .config "803".toList = false := by decide +kernel
  obtain ⟨b, hb⟩ : ∃ b, besideOut (pE rnd) .config "803".toList (zF two) (rootVal pRoot) ['h'] pInfo.uuid (rootVal (zDH two)) = some b := by
    unfold besideOut
    rw [hd]
    have ho : otherOut .config (pE rnd).tool (zF two) pInfo.uuid = some [("version".toList, some (jsonOf (rootVal pVersion))), ("versions".toList, some (jsonOf (rootVal pVersions)))] := by
      simp only [otherOut, zn2, zn3, Option.bind_some, Option.map_some]
    have hc : compatOut (kindOf .config) (rootVal (zDH two)) = some [("compatibility_version".toList, some (jsonOf (.str "80316".toList)))] := by
      unfold compatOut
      rw [show (kindOf Cls.config).compat = some V8.Product.compatConf from rfl]
      simp only [h5, Option.map_some]
    have hp : V8.Root.partsOut (pE rnd).x.win (kindOf .config) false (zF two) pInfo.uuid = some r := hr
    rw [ho, hc, hp]
    exact ⟨_, rfl⟩
  have hr1 : need (zF two) (rootName .config) = some (rootVal pRoot) := zn1
  have hr2 : getAt (rootVal pRoot) (filePath .config) = some (.str ['h']) := h1
  have hr3 : getAt (rootVal (zDH two)) (kindOf .config).head = some (.list pHead) := h2
  have hr4 : setAt (rootVal (zDH two)) (kindOf .config).head (.list pHead) = some (rootVal (zDH two)) := h4
  have hr5 : decodeHeader (pE rnd).x.valid (pE rnd).x.p false pHead = .ok (pInfo, pHead) := h3
  have hr6 : takeLists (pE rnd).x.E (pE rnd).x.auto [] [[0, 3, 1]] (rootVal (zDH two)) = some (.list ((zConf (.str zM)).map Val.list), zObjs two) := zTaken
  have hr7 : listPaths (pE rnd).groups .config (rootVal (zDH two)) = some [[0, 3, 1]] := zPaths
  unfold rootOut
  rw [hr1, Option.bind_some, hr2, Option.bind_some, strOf, Option.bind_some, zn4, Option.bind_some, hr3, Option.bind_some, V8.Root.listOf, Option.bind_some, hr5,
    Except.toOption, Option.bind_some, hr4, Option.bind_some, hb, Option.bind_some, hr7, Option.bind_some, hr6, Option.map_some]
  exact ⟨_, rfl⟩

/-! ### the modules -/

theorem zcM : classOf zM = some (.file zKM) := by decide +kernel

theorem zokE : CodeOk false false (zF two (dot ['e'] "0".toList)) := .inr (.inl ⟨_, zFe0, ex_rebuilt _ (by decide +kernel)⟩)
theorem zokD : CodeOk false false (zF two (dot ['d'] "0".toList)) := .inl zFd0

def zID : Info := ⟨['d'], "Альфа".toList, [], []⟩
def zIE : Info := ⟨['e'], "Бета".toList, [], []⟩

theorem zExtract (u : Text) (hd h' : List Val) (info : Info) (hok : CodeOk false false (zF two (dot u "0".toList))) (hF : zF two u = some (.file (braceFile false (zObj hd))))
    (hb : braceRead (braceFile false (zObj hd)) = some (zObj hd)) (hh : decodeHeader xX.valid xX.p true hd = .ok (info, h')) (hu : info.uuid = u) :
    ∃ src, extractAll xX zKM (some "803".toList) (zF two) u = some (info, [], src) := by
  obtain ⟨st, hst⟩ := storedOf_ok hok
  obtain ⟨p, hp⟩ : ∃ p, V8.Store.partsOut true zKM (zF two) u = some p := by
    unfold V8.Store.partsOut
    rw [show zKM.codes = [("obj".toList, "0".toList)] from rfl, show zKM.help = none from rfl, show zKM.blobs = [] from rfl, show zKM.info = none from rfl, V8.Store.helpOut, Option.bind_some,
      blobsOut, Option.bind_some, codesOut, codesOut, codeOut, hst, infoOut]
    exact ⟨_, rfl⟩
  have he := fun extra => extract_of xX zKM.cls (some "803".toList) extra _ (zObj hd) hd h' info (rootVal (zObj h')) (rootVal (zObj h')) [] hb rfl hh rfl rfl (.inl rfl)
  unfold extractAll
  rw [hF]
  simp only [he, Option.bind_some]
  have hp' : V8.Store.partsOut xX.win zKM (zF two) info.uuid = some p := by rw [hu]; exact hp
  rw [hp']
  exact ⟨_, rfl⟩

theorem zeD : ∃ src, extractAll xX zKM (some "803".toList) (zF two) ['d'] = some (zID, [], src) :=
  zExtract ['d'] zHD ((xSep zHD).set 2 (.str "\"Альфа\"".toList)) zID zokD zFd zrD (by decide +kernel) rfl
theorem zeE : ∃ src, extractAll xX zKM (some "803".toList) (zF two) ['e'] = some (zIE, [], src) :=
  zExtract ['e'] zHE ((xSep zHE).set 2 (.str "\"Бета\"".toList)) zIE zokE zFe zrE (by decide +kernel) rfl

theorem zTree {u : Text} {info : Info} (h : ∃ src, extractAll xX zKM (some "803".toList) (zF two) u = some (info, [], src)) (con : Option Text) :
    ∃ src, extractTree (handlers classOf xG xX xY "803".toList) (zF two) (0 + 1) con zM (.str u) = some (info, .mk (nodes src) (.ofList [])) := by
  obtain ⟨src, h⟩ := h
  have k1 : handlers classOf xG xX xY "803".toList zM = some (handlerOf xG xX xY "803".toList (.file zKM)) := by unfold handlers; rw [zcM, Option.map_some]
  have o1 : (handlerOf xG xX xY "803".toList (.file zKM)).out con (zF two) (.str u) = some (info, [], nodes src) := by rw [file_out, h, Option.map_some]
  exact ⟨src, tree_step (subs := []) k1 o1 (by rw [extractKids]) .nil⟩

def zFolders (two : Bool) (d e : Dir) : List (Text × Text × Dir) := if two then [(zM, zID.name, d), (zM, zIE.name, e)] else [(zM, zID.name, d)]

theorem zExtracted (rnd : Nat → Text) : ∃ src s1 s2, extractTree (handlers classOf xG xX xY "803".toList) (zF two) (0 + 1) (conOut .config (zF two)) zM (.str ['d']) = some (zID, .mk (nodes s1) .nil) ∧
    extractTree (handlers classOf xG xX xY "803".toList) (zF two) (0 + 1) (conOut .config (zF two)) zM (.str ['e']) = some (zIE, .mk (nodes s2) .nil) ∧
    extractProduct (pE rnd) (handlers classOf xG xX xY "803".toList) .config "803".toList (zF two) (0 + 1) = some (pInfo, .mk src (.ofList (zFolders two (.mk (nodes s1) .nil) (.mk (nodes s2) .nil)))) := by
  obtain ⟨src, h1⟩ := zRootOut (two := two) rnd
  obtain ⟨s1, t1⟩ := zTree (two := two) zeD (conOut .config (zF two))
  obtain ⟨s2, t2⟩ := zTree (two := two) zeE (conOut .config (zF two))
  refine ⟨nodes src, s1, s2, t1, t2, ?_⟩
  have hk : extractKids (extractTree (handlers classOf xG xX xY "803".toList) (zF two) (0 + 1) (conOut .config (zF two))) (zObjs two) =
      some (zFolders two (.mk (nodes s1) (.ofList [])) (.mk (nodes s2) (.ofList []))) := by
    cases two with
    | false => exact one_kid (o := ⟨zM, ['d'], .str ['d']⟩) t1
    | true =>
      have := one_kid (o := ⟨zM, ['e'], .str ['e']⟩) t2
      unfold zObjs
      rw [if_pos rfl, extractKids]
      simp only [t1, this, Option.bind_some, Option.map_some]
      rfl
  have hn : ((zFolders two (.mk (nodes s1) (.ofList [])) (.mk (nodes s2) (.ofList []))).map (fun s => (s.1, s.2.1))).Nodup := by
    have : (zFolders two (.mk (nodes s1) (.ofList [])) (.mk (nodes s2) (.ofList []))).map (fun s => (s.1, s.2.1)) = if two then [(zM, zID.name), (zM, zIE.name)] else [(zM, zID.name)] := by
      cases two <;> rfl
    rw [this]
    cases two <;> decide +kernel
  unfold extractProduct
  rw [h1, Option.bind_some]
  simp only
  rw [hk, Option.bind_some, if_pos hn]
  rfl

/-! ### what the theorems ask of this configuration -/

theorem zInside {con' : Option Text} {ty ty' : Text} {v v' : Val} (h : Inside classOf xX.E (zF two) ty v con' ty' v') : ty ≠ zM := by
  induction h with
  | listed hk hF hb ha hi hm =>
    rintro rfl
    rw [zcM] at hk
    cases hk
    cases ha
    cases hi
  | deeper _ _ ih1 _ => exact ih1

theorem zFit (u : Text) (hd : List Val) (con : Option Text) (hF : zF two u = some (.file (braceFile false (zObj hd)))) (hw : WFFile (zObj hd)) (hh : headerOf zKM.cls (zObj hd) = hd)
    (hu : uuidAt hd = some u) (hp : PrefixOk "ОО_".toList "Configuration".toList hd) (h0 : CodeOk false false (zF two (dot u "0".toList))) (y : Bld) (hy : y.win = false) (hz : y.prod = []) :
    Fit classOf xG xX y (zF two) con "Configuration".toList zM (.str u) := by
  unfold Fit
  rw [zcM]
  refine ⟨u, zObj hd, zKM, rfl, rfl, by rw [hy]; exact hF, List.cons_ne_nil _ _, hw, by rw [hh]; exact hu, by rw [hh]; exact hp, (fun h => by cases h), (fun _ => .inl hz), ?_,
    (fun s hs => by cases hs), (fun s hs => by cases hs)⟩
  intro c hc
  cases List.mem_singleton.mp hc
  rw [hy]
  exact h0

theorem zFitD (con : Option Text) (y : Bld) (hy : y.win = false) (hz : y.prod = []) : Fit classOf xG xX y (zF two) con "Configuration".toList zM (.str ['d']) := by
  refine zFit ['d'] zHD con zFd zwD (by decide +kernel) (by decide +kernel) ⟨"ОО_Альфа".toList, by decide +kernel, ?_⟩ zokD y hy hz
  rw [if_pos (by decide +kernel)]
  exact ⟨"Альфа".toList, by decide⟩
theorem zFitE (con : Option Text) (y : Bld) (hy : y.win = false) (hz : y.prod = []) : Fit classOf xG xX y (zF two) con "Configuration".toList zM (.str ['e']) := by
  refine zFit ['e'] zHE con zFe zwE (by decide +kernel) (by decide +kernel) ⟨"ОО_Бета".toList, by decide +kernel, ?_⟩ zokE y hy hz
  rw [if_pos (by decide +kernel)]
  exact ⟨"Бета".toList, by decide⟩

/-- the names by what stands in the lists -/
def zNm (v : Val) : Text := if v = .str ['d'] then zID.name else zIE.name

theorem zAuto (u : Text) (info : Info) (h : ∃ src, extractAll xX zKM (some "803".toList) (zF two) u = some (info, [], src)) (hn : info.name = zNm (.str u)) :
    AutoOk metaTypes classOf xG xX xY "803".toList (zF two) zNm zM (.str u) := by
  obtain ⟨src, h⟩ := h
  refine ⟨?_, ?_⟩
  · intro c k u b d hk hv hF hb ha hi
    rw [zcM] at hk
    cases hk
    cases ha
    cases hi
  · intro h' con r hk ho
    unfold handlers at hk
    rw [zcM, Option.map_some] at hk
    cases hk
    rw [file_out, h] at ho
    cases ho
    exact hn

theorem zProduct (rnd : Nat → Text) (file : Text) : ProductOk (pE rnd) .config "803".toList (zF two) file ['h'] ['p'] pRoot (zDH two) := by
  have hd : directives .config "803".toList = false := by decide +kernel
  have hh : headOf .config (zDH two) = pHead := by cases two <;> decide +kernel
  refine ⟨zF1, by decide, V8.Root.pw1, by decide +kernel, (fun h => by cases h), zF4, by cases two <;> decide, zw4, by rw [hh]; decide +kernel, ?_, ?_,
    (fun _ => ⟨_, zF2, by decide, V8.Root.pw2⟩), (fun h => by cases h), (fun h => by cases h), by rw [hd]; exact zParts, fun _ => rfl, (fun h => by cases h),
    (fun h => by cases h)⟩
  · intro tok ht
    rw [hh] at ht
    cases ht
    rw [show (pE rnd).x.p = "ОО_".toList from rfl]
    decide +kernel
  · intro _
    cases two <;> decide +kernel

theorem zListed : listed xX.E (rootVal (zDH two)) [[0, 3, 1]] = (zTwo two).map (fun v => (zM, v)) := by cases two <;> decide +kernel

theorem zIn {rnd : Nat → Text} {ty : Text} {v : Val} (h : InProduct (pE rnd) .config (zDH two) ty v) : ty = zM ∧ (v = .str ['d'] ∨ v = .str ['e']) := by
  obtain ⟨ps, h1, h2⟩ := h
  have h3 : listPaths (pE rnd).groups .config (rootVal (zDH two)) = some [[0, 3, 1]] := zPaths
  rw [h3] at h1
  cases h1
  have h4 : (ty, v) ∈ listed xX.E (rootVal (zDH two)) [[0, 3, 1]] := h2
  rw [zListed] at h4
  obtain ⟨w, hw, he⟩ := List.mem_map.mp h4
  cases he
  refine ⟨rfl, ?_⟩
  cases two with
  | false => exact .inl (List.mem_singleton.mp hw)
  | true => simpa [zTwo] using hw

theorem zSlots : slotsAt (rootVal (zDH two)) [0, 3, 1] = [zMods (zTwo two)] := by cases two <;> rfl

theorem zTidy : Tidy xX.E (zMods (zTwo two)) := by
  have h1 : xX.E.nameOf "0fe48980-252d-11d6-a3c7-0050bae0a776".toList = some zM := by decide +kernel
  have h2 : xX.E.handler zM ≠ .missing := by decide +kernel
  unfold zMods
  refine ⟨?_, ?_, ?_⟩
  · cases two <;> simp [zTwo, NoGap]
  · intro t' n items ty' he _
    cases he
    rfl
  · intro t' n items ty' he hty hm
    cases he
    have : xX.E.nameOf "0fe48980-252d-11d6-a3c7-0050bae0a776".toList = some ty' := hty
    rw [h1] at this
    cases this
    exact absurd hm h2

theorem zOrder : NameOrder zNm (zMods (zTwo two)) := by
  cases two with
  | false => exact one_order _ _ _ _
  | true =>
    refine ⟨?_, ?_⟩
    · show List.Pairwise _ [Val.str ['d'], .str ['e']]
      refine .cons ?_ (.cons (fun _ h => by cases h) .nil)
      intro w hw
      cases List.mem_singleton.mp hw
      decide +kernel
    · show (List.map zNm [Val.str ['d'], .str ['e']]).Nodup
      decide +kernel

theorem zInner (rnd : Nat → Text) : InnerOk metaTypes classOf xG (pE rnd) .config "803".toList (zF two) zNm (zDH two) := by
  have h3 : listPaths (pE rnd).groups .config (rootVal (zDH two)) = some [[0, 3, 1]] := zPaths
  refine ⟨?_, ?_, ?_, (fun h => by cases h), ?_, fun _ => ⟨C61_types_distinct.2, ?_⟩⟩
  · intro ps hp
    rw [h3] at hp
    cases hp
    refine ⟨?_, ?_⟩
    · intro p hp
      rw [List.mem_singleton.mp hp, zSlots]
      cases two <;> decide +kernel
    · intro p hp s hs
      rw [List.mem_singleton.mp hp, zSlots] at hs
      rw [List.mem_singleton.mp hs]
      exact zTidy
  · intro ty v h
    obtain ⟨rfl, rfl | rfl⟩ := zIn h
    · exact zFitD _ _ rfl rfl
    · exact zFitE _ _ rfl rfl
  · intro ty v con' ty' v' h hi
    exact absurd (zIn h).1 (zInside hi)
  · intro _ ps hp p hp' s hs
    rw [h3] at hp
    cases hp
    rw [List.mem_singleton.mp hp', zSlots] at hs
    rw [List.mem_singleton.mp hs]
    exact zOrder
  · intro ty v h
    obtain ⟨rfl, hv⟩ := zIn h
    refine ⟨?_, ?_⟩
    · rcases hv with rfl | rfl
      · exact zAuto _ zID zeD (by decide +kernel)
      · exact zAuto _ zIE zeE (by decide +kernel)
    · intro con' ty' v' hi
      exact absurd rfl (zInside hi)

/-! ### the examples -/

/-- two common modules; the folder of the second one is deleted: the product that is built is the one without its files, and the header lists the first one only -/
example (rnd : Nat → Text) (ord : Text → List Entry → List Entry) (shuf : List Text → List Text) (hord : ∀ id l, (ord id l).Perm l) (hshuf : ∀ l, (shuf l).Perm l) :
    ∃ src d1 d2 files files' fX d, extractProduct (pE rnd) (handlers classOf xG xX xY "803".toList) .config "803".toList (zF true) (0 + 1) =
        some (pInfo, .mk src (.ofList ([(zM, zID.name, d1)] ++ (zM, zIE.name, d2) :: []))) ∧
      V8.Root.buildProduct (pE rnd) (fun v p => handlers classOf xG xX { xY with prod := p } v) ord shuf "f".toList (.mk src (.ofList ([(zM, zID.name, d1)] ++ (zM, zIE.name, d2) :: []))) = some (.config, files) ∧
      V8.Root.buildProduct (pE rnd) (fun v p => handlers classOf xG xX { xY with prod := p } v) ord shuf "f".toList (.mk src (.ofList ([(zM, zID.name, d1)] ++ []))) = some (.config, files') ∧
      GrownBy .config false rnd fX ['h'] d (zDH true) files' files ∧ (∃ U v, OneMore U v (rootVal d) (rootVal (zDH true))) := by
  obtain ⟨src, s1, s2, _, _, hx⟩ := zExtracted (two := true) rnd
  obtain ⟨files, files', fX, names, U, v, d, h1, h2, _, _, h5, h6, _, _, _⟩ := C82_extract_remove_build metaTypes classOf xG (pE rnd) .config "803".toList (zF true) ord shuf zNm (0 + 1) pInfo src
    [(zM, zID.name, .mk (nodes s1) .nil)] [] zM zIE.name (.mk (nodes s2) .nil) "f".toList ['h'] ['p'] pRoot (zDH true)
    C61_classes rfl rfl rfl rfl rfl rfl V8.Root.C62_no_extension_type V8.Root.C62_same_version hord hshuf (zDetect rnd) hx (zProduct rnd _) (zInner rnd) (List.cons_ne_nil _ _)
  exact ⟨src, _, _, files, files', fX, d, hx, h1, h2, h5, U, v, h6⟩

/-- one common module; the folder of another one, with a text, is put beside its folder: the product that is built is the one with the files of the new module, and the header lists both -/
example (rnd : Nat → Text) (ord : Text → List Entry → List Entry) (shuf : List Text → List Text) (hord : ∀ id l, (ord id l).Perm l) (hshuf : ∀ l, (shuf l).Perm l) :
    ∃ src d1 d2 files files' fX d, extractProduct (pE rnd) (handlers classOf xG xX xY "803".toList) .config "803".toList (zF false) (0 + 1) =
        some (pInfo, .mk src (.ofList ([(zM, zID.name, d1)] ++ []))) ∧
      V8.Root.buildProduct (pE rnd) (fun v p => handlers classOf xG xX { xY with prod := p } v) ord shuf "f".toList (.mk src (.ofList ([(zM, zID.name, d1)] ++ []))) = some (.config, files) ∧
      V8.Root.buildProduct (pE rnd) (fun v p => handlers classOf xG xX { xY with prod := p } v) ord shuf "f".toList (.mk src (.ofList ([(zM, zID.name, d1)] ++ (zM, "Бета".toList, d2) :: []))) = some (.config, files') ∧
      GrownBy .config false rnd fX ['h'] (zDH false) d files files' ∧ (∃ U, OneMore U (.str ['e']) (rootVal (zDH false)) (rootVal d)) ∧
      folder (fX.map (fun p => (p.1, some p.2))) (dot ['e'] "0".toList) = some (.file (utf8 "Процедура Открыть()\n".toList)) := by
  obtain ⟨src, s1, s2, _, _, hx⟩ := zExtracted (two := false) rnd
  obtain ⟨s3, t3⟩ := zTree (two := false) zeE (V8.Root.conHeader .config (rootVal (zDH false)))
  obtain ⟨fX, b1, b2⟩ := C61_container metaTypes classOf xG xX xY "803".toList (zF false) ord zNm _ _ zM (.str ['e']) "Configuration".toList zIE _
    C61_classes rfl rfl rfl rfl hord t3 (zFitE _ _ rfl rfl) (fun _ _ _ hi => absurd rfl (zInside hi)) (fun _ => ⟨C61_types_distinct.2, zAuto _ zIE zeE (by decide +kernel), fun _ _ _ hi => absurd rfl (zInside hi)⟩)
  obtain ⟨files, files', names, U, d, h1, h2, _, h5, h6, _, _⟩ := C82_extract_add_build metaTypes classOf xG (pE rnd) .config "803".toList (zF false) ord shuf zNm (0 + 1) pInfo src
    [(zM, zID.name, .mk (nodes s1) .nil)] [] "Бета".toList (.mk (nodes s3) .nil) ⟨zM, ['e'], "Бета".toList, .str ['e']⟩ fX "f".toList ['h'] ['p'] pRoot (zDH false)
    C61_classes rfl rfl rfl rfl rfl rfl V8.Root.C62_no_extension_type V8.Root.C62_same_version hord hshuf (zDetect rnd) hx (zProduct rnd _) (zInner rnd) b1
    ⟨_, List.mem_cons_self, rfl⟩ (by
      intro q hq _
      rw [List.mem_singleton.mp hq]
      show zID.name ≠ "Бета".toList
      decide +kernel)
  refine ⟨src, _, _, files, files', fX, d, hx, h1, h2, h5, ⟨U, h6⟩, ?_⟩
  rw [(b2 _).1 (.inl ?_), zFe0]
  have o : own classOf zM (.str ['e']) = [['e'], dot ['e'] "0".toList] := by unfold own; rw [zcM]; decide +kernel
  rw [o]
  exact List.mem_cons_of_mem _ List.mem_cons_self

end V8.Folders
