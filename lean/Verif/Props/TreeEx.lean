import Verif.Props.TreeTable
/-
An example for C61: an external data source with a table that has a command, extracted on Windows with auto_include and a prefix, built on Unix.
-/
namespace V8.Tree
open V8.Brace V8.Enc V8.JsonText V8.Header V8.Nested V8.Object V8.Store
open V8.Encode (lower)

/-! ## an example: an external data source with a table that has a command -/

def xHead (u name : Text) : List Val :=
  [.str ['0'], .list [.str ['1'], .str ['0'], .str u], .str name, .list [.str ['0']], .str "\"\"".toList, .str ['0']]

def xS : Text := "ExternalDataSource".toList
def xT : Text := "ExternalDataSourceTable".toList
def xC : Text := "ExternalDataSourceTableCommand".toList

/-- the data of the command, inside the file of the table, with the header `h` -/
def xCmd (h : List Val) : Val :=
  .list [.list [.str ['1'], .list [.str ['0'], .str ['0'], .str ['0'], .list [.str ['0'], .str ['0'], .list [.str ['0'], .str ['1'], .str ['2'],
    .str ['3'], .str ['4'], .str ['5'], .str ['6'], .str ['7'], .str ['8'], .list h]]]]]

/-- an object with the header `h` and one list -/
def xObj (h : List Val) (list : Val) : List (List Val) := [[.str ['3'], .list [.str ['1'], .list [.str ['2'], .list h]], .str ['1'], list]]

def xTables : Val := .list [.str "e3403acd-1c95-421b-87e4-4dfa29d38b52".toList, .str ['1'], .str ['b']]
def xCmds (v : Val) : Val := .list [.str "5bb6f09e-5d80-41f6-8070-9faa4d15b69b".toList, .str ['1'], v]

def xHS : List Val := xHead ['a'] "\"ОО_Источник\"".toList
def xHT : List Val := xHead ['b'] "\"Таблица\"".toList
def xHC : List Val := xHead ['c'] "\"Открыть\"".toList

def xDS : List (List Val) := xObj xHS xTables
def xDT : List (List Val) := xObj xHT (xCmds (xCmd xHC))

/-! the files of a configuration with this external data source: for the example of C62 -/

def pRoot : List (List Val) := [[.str ['2'], .str ['h'], .str ['3']]]
def pVersion : List (List Val) := [[.list [.str "216".toList, .str ['0'], .list [.str "80316".toList, .str ['0']]]]]
def pVersions : List (List Val) := [[.str ['1'], .str ['2']]]
def pHead : List Val := xHead ['p'] "\"Склад\"".toList

def zero : Val := .str ['0']

/-- the properties of the configuration: the header, at 15 the version, at 26 the compatibility mode -/
def pProps : Val :=
  .list [zero, .list [zero, .list pHead], zero, zero, zero, zero, zero, zero, zero, zero, zero, zero, zero, zero, zero, .str "\"1.0\"".toList,
    zero, zero, zero, zero, zero, zero, zero, zero, zero, zero, .str "80316".toList]

/-- the list of the sources -/
def pSources (v : Val) : Val := .list [.str "5274d9fc-9c3a-4a71-8f5e-a0db8ab23de5".toList, .str ['1'], v]

/-- a configuration with the lists `s` in two groups, of which the second is in the layout `6` -/
def pConf (s : Val) : List (List Val) :=
  [[.str ['2'], .list [.str ['x']], .str ['2'],
    .list [.str "9cd510cd-abfc-11d4-9434-004095e12fc7".toList, .list [.str ['7'], pProps, .str ['0']]],
    .list [.str "e68182ea-4237-4383-967f-90c1e3370bc7".toList, .list [.str ['6'], .list [zero, zero, .str ['1'], s]]]]]

def pDH : List (List Val) := pConf (pSources (.str ['a']))

noncomputable def pF (n : Text) : Option Node :=
  if n = "root".toList then some (.file (braceFile false pRoot))
  else if n = "version".toList then some (.file (braceFile false pVersion))
  else if n = "versions".toList then some (.file (braceFile false pVersions))
  else if n = ['h'] then some (.file (braceFile false pDH))
  else if n = dot ['p'] "6".toList then some (.file (utf8 "#Область include_lib_util\nПерем А;\n#КонецОбласти\n".toList))
  else none

noncomputable def xF : Text → Option Node := fun n =>
  if n = ['a'] then some (.file (braceFile false xDS))
  else if n = ['b'] then some (.file (braceFile false xDT))
  else if n = dot ['c'] "2".toList then some (.file (utf8 "Процедура Открыть()\n".toList))
  else if n = dot ['a'] "77".toList then some (.file [1])
  else pF n

def xX : Ext := { E := envOf metaTypes classOf, auto := true, valid := fun u => !u.isEmpty, p := "ОО_".toList, win := true }
/-- no form is taken apart here -/
def xG : V8.FormObj.Lim := ⟨0, fun _ => []⟩
def xY : Bld := ⟨envOf metaTypes classOf, true, "ОО_".toList, [], false, none, []⟩

def xKS : Kind := kind "ExternalDataSource" [1, 1] true [("obj", "0")] none [] none
def xKT : Kind := kind "ExternalDataSourceTable" [1, 1] true [("obj", "0")] none [] none
def xKC : Kind := kind "ExternalDataSourceTableCommand" [3, 2, 9] false [("obj", "2")] none [] none

theorem xcS : classOf xS = some (.file xKS) := by decide +kernel
theorem xcT : classOf xT = some (.file xKT) := by decide +kernel
theorem xcC : classOf xC = some (.inner xKC) := by decide +kernel

theorem xFa : xF ['a'] = some (.file (braceFile false xDS)) := by unfold xF; rw [if_pos rfl]
theorem xFb : xF ['b'] = some (.file (braceFile false xDT)) := by unfold xF; rw [if_neg (by decide), if_pos rfl]
theorem xFc : xF (dot ['c'] "2".toList) = some (.file (utf8 "Процедура Открыть()\n".toList)) := by
  unfold xF; rw [if_neg (by decide), if_neg (by decide), if_pos rfl]
theorem pF_none {n : Text} (h : n ∉ ["root".toList, "version".toList, "versions".toList, ['h'], dot ['p'] "6".toList]) : pF n = none := by
  simp only [List.mem_cons, not_or] at h
  unfold pF
  rw [if_neg h.1, if_neg h.2.1, if_neg h.2.2.1, if_neg h.2.2.2.1, if_neg h.2.2.2.2.1]
theorem xF_p {n : Text} (h : n ∉ [['a'], ['b'], dot ['c'] "2".toList, dot ['a'] "77".toList]) : xF n = pF n := by
  simp only [List.mem_cons, not_or] at h
  unfold xF
  rw [if_neg h.1, if_neg h.2.1, if_neg h.2.2.1, if_neg h.2.2.2.1]
theorem xFa0 : xF (dot ['a'] "0".toList) = none := (xF_p (by decide)).trans (pF_none (by decide))
theorem xFb0 : xF (dot ['b'] "0".toList) = none := (xF_p (by decide)).trans (pF_none (by decide))

theorem xwS : WFFile xDS := fileB_ok xDS (by decide +kernel)
theorem xwT : WFFile xDT := fileB_ok xDT (by decide +kernel)

theorem xrS : braceRead (braceFile false xDS) = some xDS := C59_brace_file_round_trip false xDS (by decide) xwS
theorem xrT : braceRead (braceFile false xDT) = some xDT := C59_brace_file_round_trip false xDT (by decide) xwT

def xIS : Info := ⟨['a'], "Источник".toList, [], []⟩
def xIT : Info := ⟨['b'], "Таблица".toList, [], []⟩
def xIC : Info := ⟨['c'], "Открыть".toList, [], []⟩

theorem xParts (k : Kind) (u : Text) (c : Text × Text) (h1 : k.codes = [c]) (h2 : k.help = none) (h3 : k.blobs = []) (h4 : k.info = none)
    (hok : CodeOk false false (xF (dot u c.2))) : ∃ p, partsOut true k xF u = some p := by
  obtain ⟨st, hst⟩ := storedOf_ok hok
  unfold partsOut
  rw [h1, h2, h3, h4, helpOut, Option.bind_some, blobsOut, Option.bind_some, codesOut, codesOut, codeOut, hst, infoOut]
  exact ⟨_, rfl⟩

theorem xokC : CodeOk false false (xF (dot ['c'] "2".toList)) := .inr (.inl ⟨_, xFc, ex_rebuilt _ (by decide +kernel)⟩)

theorem xExtract (k : Kind) (u : Text) (c : Text × Text) (d : List (List Val)) (hd h' : List Val) (info : Info) (r1 r2 : Val) (os : List Obj)
    (h1 : k.codes = [c]) (h2 : k.help = none) (h3 : k.blobs = []) (h4 : k.info = none) (hok : CodeOk false false (xF (dot u c.2)))
    (hF : xF u = some (.file (braceFile false d))) (hb : braceRead (braceFile false d) = some d)
    (hg : V8.Product.getAt (rootVal d) k.cls.path = some (.list hd)) (hh : decodeHeader xX.valid xX.p true hd = .ok (info, h'))
    (hs : V8.Product.setAt (rootVal d) k.cls.path (.list h') = some r1) (ht : takeIncludes xX k.cls r1 = some (r2, os)) (hu : info.uuid = u)
    (hids : k.cls.ids = []) :
    ∃ src, extractAll xX k (some "803".toList) xF u = some (info, os, src) := by
  obtain ⟨p, hp⟩ := xParts k u c h1 h2 h3 h4 hok
  have he := fun extra => extract_of xX k.cls (some "803".toList) extra _ d hd h' info r1 r2 os hb hg hh hs ht (.inl hids)
  unfold extractAll
  rw [hF]
  simp only [he, Option.bind_some]
  have hp' : partsOut xX.win k xF info.uuid = some p := by rw [hu]; exact hp
  rw [hp']
  exact ⟨_, rfl⟩

def xSep (h : List Val) : List Val := h.set 1 (.list [.str ['1'], .str ['0'], .str elsewhere])

theorem xeS : ∃ src, extractAll xX xKS (some "803".toList) xF ['a'] = some (xIS, [⟨xT, ['b'], .str ['b']⟩], src) :=
  xExtract xKS ['a'] ("obj".toList, "0".toList) xDS xHS ((xSep xHS).set 2 (.str "\"Источник\"".toList)) xIS
    (.list [.list [.str ['3'], .list [.str ['1'], .list [.str ['2'], .list ((xSep xHS).set 2 (.str "\"Источник\"".toList))]], .str ['1'], xTables]])
    (.list [.list [.str ['3'], .list [.str ['1'], .list [.str ['2'], .list ((xSep xHS).set 2 (.str "\"Источник\"".toList))]], .str ['1'], .str xT]])
    _ rfl rfl rfl rfl (.inl xFa0) xFa xrS (by decide +kernel) (by decide +kernel) (by decide +kernel) (by decide +kernel) rfl rfl

theorem xeT : ∃ src, extractAll xX xKT (some "803".toList) xF ['b'] = some (xIT, [⟨xC, ['c'], xCmd xHC⟩], src) :=
  xExtract xKT ['b'] ("obj".toList, "0".toList) xDT xHT (xSep xHT) xIT
    (.list [.list [.str ['3'], .list [.str ['1'], .list [.str ['2'], .list (xSep xHT)]], .str ['1'], xCmds (xCmd xHC)]])
    (.list [.list [.str ['3'], .list [.str ['1'], .list [.str ['2'], .list (xSep xHT)]], .str ['1'], .str xC]])
    _ rfl rfl rfl rfl (.inl xFb0) xFb xrT (by decide +kernel) (by decide +kernel) (by decide +kernel) (by decide +kernel) rfl rfl

theorem xeC : ∃ src, innerAll xX xKC xF (xCmd xHC) = some (xIC, src) := by
  obtain ⟨p, hp⟩ := xParts xKC ['c'] ("obj".toList, "2".toList) rfl rfl rfl rfl xokC
  have hg : V8.Product.getAt (xCmd xHC) xKC.cls.path = some (.list xHC) := by decide +kernel
  have hh : decodeHeader xX.valid xX.p true xHC = .ok (xIC, xSep xHC) := by decide +kernel
  have hs : V8.Product.setAt (xCmd xHC) xKC.cls.path (.list (xSep xHC)) = some (xCmd (xSep xHC)) := by decide +kernel
  have ht : takeIncludes xX xKC.cls (xCmd (xSep xHC)) = some (xCmd (xSep xHC), []) := by decide +kernel
  have hid : hideIds xKC.cls none (xCmd (xSep xHC)) = some ([], xCmd (xSep xHC)) := by unfold hideIds; rw [if_pos (.inl rfl)]
  unfold innerAll extractVal
  simp only [hg, hh, hs, ht, hid, Option.bind_some, Option.map_some]
  have hp' : partsOut xX.win xKC xF xIC.uuid = some p := hp
  rw [hp']
  exact ⟨_, rfl⟩

theorem file_out (g : V8.FormObj.Lim) (con : Option Text) (x : Ext) (y : Bld) (ver : Text) (k : Kind) (F : Text → Option Node) (u : Text) :
    (handlerOf g x y ver (.file k)).out con F (.str u) = (extractAll x k (some ver) F u).map (fun r => (r.1, r.2.1, nodes r.2.2)) := rfl

theorem inner_out (g : V8.FormObj.Lim) (con : Option Text) (x : Ext) (y : Bld) (ver : Text) (k : Kind) (F : Text → Option Node) (l : List Val) :
    (handlerOf g x y ver (.inner k)).out con F (.list l) = (innerAll x k F (.list l)).map (fun r => (r.1, [], nodes r.2)) := rfl

theorem tree_step {K : Text → Option Handler} {F : Text → Option Node} {n : Nat} {con : Option Text} {ty : Text} {v : Val} {h : Handler} {i : Info} {os : List Obj}
    {src : List (Place Node)} {subs : List (Text × Text × Dir)} (hk : K ty = some h) (ho : h.out con F v = some (i, os, src))
    (hs : extractKids (extractTree K F n (h.con F v)) os = some subs) (hn : (subs.map (fun s => (s.1, s.2.1))).Nodup) :
    extractTree K F (n + 1) con ty v = some (i, .mk src (.ofList subs)) := by
  rw [extractTree]
  simp only [hk, ho, hs, Option.bind_some]
  rw [if_pos hn]

theorem one_kid {f : Text → Val → Option (Info × Dir)} {o : Obj} {q : Info × Dir} (h : f o.ty o.orig = some q) :
    extractKids f [o] = some [(o.ty, q.1.name, q.2)] := by
  rw [extractKids, h, Option.bind_some, extractKids]
  rfl

theorem one_nodup (a : Text × Text × Dir) : ([a].map (fun s => (s.1, s.2.1))).Nodup := by
  rw [List.map_cons, List.map_nil, List.nodup_cons]
  exact ⟨(fun h => by cases h), .nil⟩

theorem xTree (con : Option Text) : ∃ dir, extractTree (handlers classOf xG xX xY "803".toList) xF (0 + 1 + 1 + 1) con xS (.str ['a']) = some (xIS, dir) := by
  obtain ⟨s1, e1⟩ := xeS
  obtain ⟨s2, e2⟩ := xeT
  obtain ⟨s3, e3⟩ := xeC
  have k1 : handlers classOf xG xX xY "803".toList xS = some (handlerOf xG xX xY "803".toList (.file xKS)) := by unfold handlers; rw [xcS, Option.map_some]
  have k2 : handlers classOf xG xX xY "803".toList xT = some (handlerOf xG xX xY "803".toList (.file xKT)) := by unfold handlers; rw [xcT, Option.map_some]
  have k3 : handlers classOf xG xX xY "803".toList xC = some (handlerOf xG xX xY "803".toList (.inner xKC)) := by unfold handlers; rw [xcC, Option.map_some]
  have o1 : (handlerOf xG xX xY "803".toList (.file xKS)).out con xF (.str ['a']) = some (xIS, [⟨xT, ['b'], .str ['b']⟩], nodes s1) := by rw [file_out, e1, Option.map_some]
  have o2 : ∀ con, (handlerOf xG xX xY "803".toList (.file xKT)).out con xF (.str ['b']) = some (xIT, [⟨xC, ['c'], xCmd xHC⟩], nodes s2) := by intro con; rw [file_out, e2, Option.map_some]
  have o3 : ∀ con, (handlerOf xG xX xY "803".toList (.inner xKC)).out con xF (xCmd xHC) = some (xIC, [], nodes s3) := by
    intro con
    rw [xCmd, inner_out, ← xCmd, e3, Option.map_some]
  have t3 : ∀ con, extractTree (handlers classOf xG xX xY "803".toList) xF (0 + 1) con xC (xCmd xHC) = some (xIC, .mk (nodes s3) (.ofList [])) := fun con =>
    tree_step k3 (o3 con) (by rw [extractKids]) .nil
  have t2 := fun con => tree_step (F := xF) k2 (o2 con) (one_kid (o := ⟨xC, ['c'], xCmd xHC⟩) (t3 _)) (one_nodup _)
  have t1 := tree_step (F := xF) k1 o1 (one_kid (o := ⟨xT, ['b'], .str ['b']⟩) (t2 _)) (one_nodup _)
  exact ⟨_, t1⟩

/-- what is nested in what -/
theorem xInside {con' : Option Text} {ty ty' : Text} {v v' : Val} (h : Inside classOf xX.E xF ty v con' ty' v') :
    (ty = xS → v = .str ['a'] → (ty' = xT ∧ v' = .str ['b']) ∨ (ty' = xC ∧ v' = xCmd xHC)) ∧
    (ty = xT → v = .str ['b'] → ty' = xC ∧ v' = xCmd xHC) ∧ (ty = xC → False) := by
  induction h with
  | listed hk hF hb ha hi hm =>
    refine ⟨?_, ?_, ?_⟩
    · rintro rfl hv
      cases hv
      rw [xFa] at hF
      cases hF
      rw [xrS] at hb
      cases hb
      have : (slotsOf xDS).flatMap (listedSlot xX.E) = [(xT, .str ['b'])] := by decide +kernel
      rw [this] at hm
      cases List.mem_singleton.mp hm
      exact .inl ⟨rfl, rfl⟩
    · rintro rfl hv
      cases hv
      rw [xFb] at hF
      cases hF
      rw [xrT] at hb
      cases hb
      have : (slotsOf xDT).flatMap (listedSlot xX.E) = [(xC, xCmd xHC)] := by decide +kernel
      rw [this] at hm
      cases List.mem_singleton.mp hm
      exact ⟨rfl, rfl⟩
    · rintro rfl
      rw [xcC] at hk
      cases hk
      cases ha
  | deeper _ _ ih1 ih2 =>
    refine ⟨?_, ?_, ih1.2.2⟩
    · intro h1 h2
      rcases ih1.1 h1 h2 with ⟨h3, h4⟩ | ⟨h3, _⟩
      · exact .inr (ih2.2.1 h3 h4)
      · exact absurd h3 ih2.2.2
    · intro h1 h2
      exact absurd (ih1.2.1 h1 h2).1 ih2.2.2

theorem one_tidy (E : Env) (t ty : Text) (v : Val) (h1 : E.nameOf t = some ty) (h2 : E.handler ty ≠ .missing) (hv : Val.none ≠ v) :
    Tidy E (.list [.str t, .str ['1'], v]) := by
  refine ⟨?_, ?_, ?_⟩
  · intro h
    simp only [List.mem_cons, List.not_mem_nil, or_false, reduceCtorEq, false_or] at h
    exact hv h
  · intro t' n items ty' he _
    cases he
    show ['1'] = V8.Dec.showNat 1
    decide +kernel
  · intro t' n items ty' he hty hm
    cases he
    have : E.nameOf t = some ty' := hty
    rw [h1] at this
    cases this
    exact absurd hm h2

theorem xlS : (slotsOf xDS).flatMap (listedSlot xX.E) = [(xT, .str ['b'])] := by decide +kernel
theorem xlT : (slotsOf xDT).flatMap (listedSlot xX.E) = [(xC, xCmd xHC)] := by decide +kernel

theorem xFit (k : Kind) (u parent : Text) (h : List Val) (s : Val) (p : Text × Val) (hF : xF u = some (.file (braceFile false (xObj h s))))
    (hc : k.codes = [("obj".toList, "0".toList)]) (hh : k.help = none) (hi : k.info = none) (hw : WFFile (xObj h s)) (hh2 : headerOf k.cls (xObj h s) = h)
    (hu : uuidAt h = some u) (hp : PrefixOk xX.p parent h) (ht : Tidy xX.E s) (hl : (slotsOf (xObj h s)).flatMap (listedSlot xX.E) = [p])
    (h0 : xF (dot u "0".toList) = none) : FitFile xX xY xF parent k u (xObj h s) := by
  refine ⟨hF, List.cons_ne_nil _ _, hw, by rw [hh2]; exact hu, by rw [hh2]; exact hp, fun _ => ⟨?_, ?_, ?_⟩, (fun _ => .inl rfl), ?_, ?_, ?_⟩
  · show some (Val.str ['1']) = some (.str (V8.Dec.showNat 1))
    decide +kernel
  · intro q hq
    have : slotsOf (xObj h s) = [s] := rfl
    rw [this] at hq
    cases List.mem_singleton.mp hq
    exact ht
  · intro ty v v' u u' h1 h2 _ _ _
    rw [hl] at h1 h2
    have e1 := List.mem_singleton.mp h1
    have e2 := List.mem_singleton.mp h2
    rw [← e2] at e1
    exact (Prod.mk.inj e1).2
  · intro c hc'
    rw [hc] at hc'
    cases List.mem_singleton.mp hc'
    exact .inl h0
  · intro q hq
    rw [hh] at hq
    cases hq
  · intro q hq
    rw [hi] at hq
    cases hq

theorem xFitS (con : Option Text) : Fit classOf xG xX xY xF con "Configuration".toList xS (.str ['a']) := by
  unfold Fit
  rw [xcS]
  refine ⟨['a'], xDS, xKS, rfl, rfl, xFit xKS ['a'] _ xHS xTables (xT, .str ['b']) xFa rfl rfl rfl xwS (by decide +kernel) (by decide +kernel) ?_
    (one_tidy _ _ xT _ (by decide +kernel) (by decide +kernel) (by decide)) xlS xFa0⟩
  refine ⟨"ОО_Источник".toList, by decide +kernel, ?_⟩
  rw [if_pos (by decide +kernel)]
  exact ⟨"Источник".toList, by decide⟩

theorem xFitT (con : Option Text) : Fit classOf xG xX xY xF con ['/'] xT (.str ['b']) := by
  unfold Fit
  rw [xcT]
  refine ⟨['b'], xDT, xKT, rfl, rfl, xFit xKT ['b'] _ xHT (xCmds (xCmd xHC)) (xC, xCmd xHC) xFb rfl rfl rfl xwT (by decide +kernel) (by decide +kernel) ?_
    (one_tidy _ _ xC _ (by decide +kernel) (by decide +kernel) (by unfold xCmd; exact Val.noConfusion)) xlT xFb0⟩
  refine ⟨"Таблица".toList, by decide +kernel, ?_⟩
  rw [if_neg (by decide +kernel)]
  exact .inr (by decide)

theorem xFitC (con : Option Text) : Fit classOf xG xX xY xF con ['/'] xC (xCmd xHC) := by
  unfold Fit
  rw [xcC]
  refine ⟨_, ['c'], rfl, by decide +kernel, ⟨"Открыть".toList, by decide +kernel, ?_⟩, ?_⟩
  · rw [if_neg (by decide +kernel)]
    exact .inr (by decide)
  · intro c hc
    cases List.mem_singleton.mp hc
    exact xokC

/-- the names by what stands in the lists -/
def xNm (v : Val) : Text := if v = .str ['a'] then xIS.name else if v = .str ['b'] then xIT.name else xIC.name

theorem one_order (nm : Val → Text) (a b v : Val) : NameOrder nm (.list [a, b, v]) := by
  refine ⟨List.pairwise_singleton _ _, ?_⟩
  rw [List.map_cons, List.map_nil, List.nodup_cons]
  exact ⟨(fun h => by cases h), .nil⟩

theorem xAuto (c : Class) (ty : Text) (v : Val) (hc : classOf ty = some c) (hs : ∀ k u b d, v = .str u → xF u = some (.file b) →
    braceRead b = some d → c.kindAt (rootVal d) = some k → ∀ s ∈ slotsOf d, NameOrder xNm s) (i : Info) (hi : ∀ con r, (handlerOf xG xX xY "803".toList c).out con xF v = some r → r.1 = i)
    (hn : i.name = xNm v) : AutoOk metaTypes classOf xG xX xY "803".toList xF xNm ty v := by
  refine ⟨?_, ?_⟩
  · intro c' k u b d hk hv hF hb ha _
    rw [hc] at hk
    cases hk
    exact hs k u b d hv hF hb ha
  · intro h con r hk ho
    unfold handlers at hk
    rw [hc, Option.map_some] at hk
    cases hk
    rw [hi con r ho, hn]

theorem xAutoS : AutoOk metaTypes classOf xG xX xY "803".toList xF xNm xS (.str ['a']) := by
  obtain ⟨s1, e1⟩ := xeS
  refine xAuto _ xS _ xcS ?_ xIS ?_ (by decide +kernel)
  · intro k u b d hv hF hb _
    cases hv
    rw [xFa] at hF
    cases hF
    rw [xrS] at hb
    cases hb
    intro s hs
    have : slotsOf xDS = [xTables] := rfl
    rw [this] at hs
    cases List.mem_singleton.mp hs
    exact one_order _ _ _ _
  · intro con r hr
    rw [file_out, e1] at hr
    cases hr
    rfl

theorem xAutoT : AutoOk metaTypes classOf xG xX xY "803".toList xF xNm xT (.str ['b']) := by
  obtain ⟨s1, e1⟩ := xeT
  refine xAuto _ xT _ xcT ?_ xIT ?_ (by decide +kernel)
  · intro k u b d hv hF hb _
    cases hv
    rw [xFb] at hF
    cases hF
    rw [xrT] at hb
    cases hb
    intro s hs
    have : slotsOf xDT = [xCmds (xCmd xHC)] := rfl
    rw [this] at hs
    cases List.mem_singleton.mp hs
    exact one_order _ _ _ _
  · intro con r hr
    rw [file_out, e1] at hr
    cases hr
    rfl

theorem xAutoC : AutoOk metaTypes classOf xG xX xY "803".toList xF xNm xC (xCmd xHC) := by
  obtain ⟨s1, e1⟩ := xeC
  refine xAuto _ xC _ xcC ?_ xIC ?_ (by decide +kernel)
  · intro k u b d _ _ _ hk
    cases hk
  · intro con r hr
    rw [xCmd, inner_out, ← xCmd, e1] at hr
    cases hr
    rfl

/-- extracted with auto_include and a prefix on Windows, built on Unix with any order of delivery: the three files of the objects are written again and
nothing else (`a.77` belongs to no object and is lost) -/
example (con : Option Text) (ord : Text → List Entry → List Entry) (hord : ∀ id l, (ord id l).Perm l) :
    ∃ dir files, extractTree (handlers classOf xG xX xY "803".toList) xF (0 + 1 + 1 + 1) con xS (.str ['a']) = some (xIS, dir) ∧
      buildDir (handlers classOf xG xX xY "803".toList) ord con "Configuration".toList xS xIS.name dir = some ([⟨xS, ['a'], xIS.name, .str ['a']⟩], files) ∧
      folder (files.map (fun p => (p.1, some p.2))) ['a'] = xF ['a'] ∧ folder (files.map (fun p => (p.1, some p.2))) ['b'] = xF ['b'] ∧
      folder (files.map (fun p => (p.1, some p.2))) (dot ['c'] "2".toList) = xF (dot ['c'] "2".toList) ∧
      folder (files.map (fun p => (p.1, some p.2))) (dot ['a'] "77".toList) = none := by
  obtain ⟨dir, hx⟩ := xTree con
  have iT : Inside classOf xX.E xF xS (.str ['a']) _ xT (.str ['b']) :=
    .listed xcS xFa xrS rfl rfl (by rw [xlS]; exact List.mem_cons_self)
  have iC : Inside classOf xX.E xF xT (.str ['b']) _ xC (xCmd xHC) :=
    .listed xcT xFb xrT rfl rfl (by rw [xlT]; exact List.mem_cons_self)
  have oS : own classOf xS (.str ['a']) = [['a'], dot ['a'] "0".toList] := by unfold own; rw [xcS]; decide +kernel
  have oT : own classOf xT (.str ['b']) = [['b'], dot ['b'] "0".toList] := by unfold own; rw [xcT]; decide +kernel
  have oC : own classOf xC (xCmd xHC) = [dot ['c'] "2".toList] := by unfold own; rw [xcC]; decide +kernel
  obtain ⟨files, h1, h2⟩ := C61_container metaTypes classOf xG xX xY "803".toList xF ord xNm _ con xS (.str ['a']) "Configuration".toList xIS dir
    C61_classes rfl rfl rfl rfl hord hx (xFitS con)
    (by
      intro con' ty' v' hi
      rcases (xInside hi).1 rfl rfl with ⟨rfl, rfl⟩ | ⟨rfl, rfl⟩
      · exact xFitT _
      · exact xFitC _)
    (fun _ => ⟨C61_types_distinct.2, xAutoS, by
      intro con' ty' v' hi
      rcases (xInside hi).1 rfl rfl with ⟨rfl, rfl⟩ | ⟨rfl, rfl⟩
      · exact xAutoT
      · exact xAutoC⟩)
  refine ⟨dir, files, hx, h1, (h2 _).1 (.inl ?_), (h2 _).1 (.inr ⟨_, _, _, iT, ?_⟩), (h2 _).1 (.inr ⟨_, _, _, .deeper iT iC, ?_⟩), (h2 _).2 ?_⟩
  · rw [oS]; exact List.mem_cons_self
  · rw [oT]; exact List.mem_cons_self
  · rw [oC]; exact List.mem_cons_self
  · rintro (hm | ⟨con', ty', v', hi, hm⟩)
    · rw [oS] at hm
      exact absurd hm (by decide)
    · rcases (xInside hi).1 rfl rfl with ⟨rfl, rfl⟩ | ⟨rfl, rfl⟩
      · rw [oT] at hm
        exact absurd hm (by decide)
      · rw [oC] at hm
        exact absurd hm (by decide)

end V8.Tree
