import Verif.Props.TreeEx
import Verif.Props.FormEx
/-
An example for C61 with a form: a catalog with a managed form, one attribute of which refers to the catalog.  Extracted on Windows with a prefix, built on
Unix.
-/
namespace V8.Tree
open V8.Brace V8.Enc V8.JsonText V8.Header V8.Object V8.Nested V8.Store
open V8.Leaf (eF eF_u eF_0 ePre eInfo eHead eX eY)
open V8.FormObj (eFm eForm eRaw eLim eSite eFormFit eFormOut eLim_good formOut eF_1)
open V8.Product (getAt setAt)

def fHead : List Val := xHead ['k'] "\"Я_Товары\"".toList
def fForms : Val := .list [.str "fdf816d2-1ead-11d5-b975-0050bae0a95d".toList, .str ['1'], .str ['u']]
/-- the file of the catalog: its identifier for references is `u` (`header_data[0][1][1]`), which the type of the attribute `P` of the form names -/
def fObj (h : List Val) (s : Val) : List (List Val) :=
  [[.str ['1'], .list [.str "57".toList, .str ['u'], zero, zero, zero, zero, zero, zero, zero, .list [zero, .list h]], .str ['1'], s]]
def fD : List (List Val) := fObj fHead fForms

noncomputable def fF : Text → Option Node := fun n => if n = ['k'] then some (.file (braceFile false fD)) else eFm n

/-- with the prefix `Я_`: the name of the form has none -/
def fX : Ext := { xX with auto := false, p := "Я_".toList }
def fY : Bld := { xY with auto := false, p := "Я_".toList }
def fKC : Kind := kind "Catalog" [9, 1] true [("mgr", "3"), ("obj", "0")] (some "1") [predefined "1c"] none
def fC : Text := "Catalog".toList
def fG : Text := "CatalogForm".toList
def fIG : Info := ⟨['u'], "ОО_Выбор".toList, [], []⟩
def fI : Info := ⟨['k'], "Товары".toList, [], []⟩

theorem fcC : classOf fC = some (.file fKC) := by decide +kernel
theorem fcG : classOf fG = some (.form eSite) := by decide +kernel
theorem fFk : fF ['k'] = some (.file (braceFile false fD)) := by unfold fF; rw [if_pos rfl]
theorem fFe {n : Text} (h : n ≠ ['k']) : fF n = eFm n := by unfold fF; rw [if_neg h]
theorem fw : WFFile fD := fileB_ok fD (by decide +kernel)
theorem fr : braceRead (braceFile false fD) = some fD := C59_brace_file_round_trip false fD (by decide) fw
theorem fl : (slotsOf fD).flatMap (listedSlot fX.E) = [(fG, .str ['u'])] := by decide +kernel

theorem eFm_none {n : Text} (h : n ∉ [['u'], dot ['u'] ['0']]) : eFm n = none := by
  simp only [List.mem_cons, not_or] at h
  unfold eFm eF
  rw [if_neg h.1, if_neg h.2.1]

theorem fNone : ∀ s ∈ ["3", "0", "1", "1c"].map String.toList, fF (dot ['k'] s) = none := by
  intro s hs
  have h : ∀ s ∈ ["3", "0", "1", "1c"].map String.toList, dot ['k'] s ≠ ['k'] ∧ dot ['k'] s ∉ [['u'], dot ['u'] ['0']] := by decide +kernel
  rw [fFe (h s hs).1]
  exact eFm_none (h s hs).2

/-- the identifier the form of the catalog is told -/
theorem fCon : conOf (.file fKC) fF (.str ['k']) = some ['u'] := by
  show conOut fKC fF (.str ['k']) = _
  unfold conOut
  simp only [fFk, fr, Option.bind_some]
  rw [if_pos (by decide)]
  rfl

theorem fParts : ∃ p, partsOut true fKC fF ['k'] = some p := by
  have hc : ∀ c ∈ fKC.codes, CodeOk false false (fF (dot ['k'] c.2)) := by
    have : ∀ c ∈ fKC.codes, c.2 ∈ ["3", "0", "1", "1c"].map String.toList := by decide
    exact fun c hm => .inl (fNone _ (this c hm))
  obtain ⟨s1, h1⟩ := storedOf_ok (hc ("mgr".toList, "3".toList) (by decide))
  obtain ⟨s2, h2⟩ := storedOf_ok (hc ("obj".toList, "0".toList) (by decide))
  unfold partsOut
  rw [show fKC.codes = [("mgr".toList, "3".toList), ("obj".toList, "0".toList)] from rfl, show fKC.help = some "1".toList from rfl,
    show fKC.blobs = [("1c".toList, "Предустановленные данные.bin".toList)] from rfl, show fKC.info = none from rfl]
  simp only [helpOut, fileAt, fNone "1".toList (by decide), blobsOut, fNone "1c".toList (by decide), codesOut, codeOut, h1, h2, infoOut, Option.bind_some, Option.map_some]
  exact ⟨_, rfl⟩

theorem feC : ∃ src, extractAll fX fKC (some "803".toList) fF ['k'] = some (fI, [⟨fG, ['u'], .str ['u']⟩], src) := by
  obtain ⟨p, hp⟩ := fParts
  have he := fun extra => extract_of fX fKC.cls (some "803".toList) extra _ fD fHead ((xSep fHead).set 2 (.str "\"Товары\"".toList)) fI
    (.list ((fObj ((xSep fHead).set 2 (.str "\"Товары\"".toList)) fForms).map .list))
    (.list ((fObj ((xSep fHead).set 2 (.str "\"Товары\"".toList)) fForms).map .list)) [⟨fG, ['u'], .str ['u']⟩] fr (by decide +kernel) (by decide +kernel)
    (by decide +kernel) (by decide +kernel) (.inl rfl)
  unfold extractAll
  rw [fFk]
  simp only [he, Option.bind_some]
  have hp' : partsOut fX.win fKC fF fI.uuid = some p := hp
  rw [hp']
  exact ⟨_, rfl⟩

/-- extraction of a form looks at its three files, and not at the other settings -/
theorem feG : ∃ src, formOut fX eLim (some ['u']) eSite fF ['u'] = some (fIG, src) := by
  obtain ⟨src, hs⟩ := eFormOut
  obtain ⟨b, d, c, hd, h', r, ty, z, one, v, e, g1, g2, g3, g4, g5, g6, g7, g8, g9, g10, g11, _⟩ := V8.FormObj.formOut_some hs
  have q1 : eFm ['u'] = some (.file (braceFile false eForm)) := eF_u _ _
  rw [q1] at g1
  cases g1
  rw [V8.FormObj.eR_form] at g2
  cases g2
  have h0 : fF (dot fIG.uuid ['0']) = eFm (dot fIG.uuid ['0']) := fFe (by decide)
  have h1 : fF (dot fIG.uuid ['1']) = eFm (dot fIG.uuid ['1']) := fFe (by decide)
  refine V8.FormObj.formOut_of (by rw [fFe (by decide)]; exact q1) V8.FormObj.eR_form (c := (V8.Leaf.plain [1, 1], "13".toList)) (by decide +kernel)
    (hd := eHead "\"ОО_Выбор\"".toList "\"\"".toList) (by decide +kernel) (h' := V8.Leaf.eSep "\"ОО_Выбор\"".toList "\"\"".toList) (by decide +kernel)
    (r := .list [.list [.str ['1'], .list [.str ['0'], .list [.str "13".toList, .list (V8.Leaf.eSep "\"ОО_Выбор\"".toList "\"\"".toList), .str ['0'], .str ['1'], .str ['0']]]]])
    (by decide +kernel) g7 (by rw [h0]; exact g8) ?_ g10 g11
  unfold fileAt at g9 ⊢
  rw [h1]
  exact g9

theorem form_out_eq (g : V8.FormObj.Lim) (con : Option Text) (x : Ext) (y : Bld) (ver : Text) (f : V8.FormObj.FCls) (F : Text → Option Node) (u : Text) :
    (handlerOf g x y ver (.form f)).out con F (.str u) = (formOut x g con f F u).map (fun r => (r.1, [], r.2)) := rfl

theorem file_con (g : V8.FormObj.Lim) (x : Ext) (y : Bld) (ver : Text) (k : Kind) (F : Text → Option Node) (v : Val) :
    (handlerOf g x y ver (.file k)).con F v = conOf (.file k) F v := rfl

theorem fTree (con : Option Text) : ∃ dir, extractTree (handlers classOf eLim fX fY "803".toList) fF (0 + 1 + 1) con fC (.str ['k']) = some (fI, dir) := by
  obtain ⟨s1, e1⟩ := feC
  obtain ⟨s2, e2⟩ := feG
  have k1 : handlers classOf eLim fX fY "803".toList fC = some (handlerOf eLim fX fY "803".toList (.file fKC)) := by unfold handlers; rw [fcC, Option.map_some]
  have k2 : handlers classOf eLim fX fY "803".toList fG = some (handlerOf eLim fX fY "803".toList (.form eSite)) := by unfold handlers; rw [fcG, Option.map_some]
  have o1 : (handlerOf eLim fX fY "803".toList (.file fKC)).out con fF (.str ['k']) = some (fI, [⟨fG, ['u'], .str ['u']⟩], nodes s1) := by
    rw [file_out, e1, Option.map_some]
  have o2 : (handlerOf eLim fX fY "803".toList (.form eSite)).out (some ['u']) fF (.str ['u']) = some (fIG, [], s2) := by
    rw [form_out_eq, e2, Option.map_some]
  have t2 : extractTree (handlers classOf eLim fX fY "803".toList) fF (0 + 1) (some ['u']) fG (.str ['u']) = some (fIG, .mk s2 (.ofList [])) :=
    tree_step k2 o2 (by rw [extractKids]) .nil
  have hc : (handlerOf eLim fX fY "803".toList (.file fKC)).con fF (.str ['k']) = some ['u'] := by rw [file_con, fCon]
  have t1 := tree_step (F := fF) k1 o1 (by rw [hc]; exact one_kid (o := ⟨fG, ['u'], .str ['u']⟩) t2) (one_nodup _)
  exact ⟨_, t1⟩

theorem fInside {con' : Option Text} {ty ty' : Text} {v v' : Val} (h : Inside classOf fX.E fF ty v con' ty' v') :
    (ty = fC → v = .str ['k'] → con' = some ['u'] ∧ ty' = fG ∧ v' = .str ['u']) ∧ (ty = fG → False) := by
  induction h with
  | listed hk hF hb ha hi hm =>
    refine ⟨?_, ?_⟩
    · rintro rfl hv
      cases hv
      rw [fFk] at hF
      cases hF
      rw [fr] at hb
      cases hb
      rw [fl] at hm
      cases List.mem_singleton.mp hm
      rw [fcC] at hk
      cases hk
      exact ⟨fCon, rfl, rfl⟩
    · rintro rfl
      rw [fcG] at hk
      cases hk
      cases ha
  | deeper _ _ ih1 ih2 =>
    refine ⟨?_, ih1.2⟩
    intro h1 h2
    exact absurd (ih1.1 h1 h2).2.1 ih2.2

theorem fFitC (con : Option Text) : Fit classOf eLim fX fY fF con "Configuration".toList fC (.str ['k']) := by
  unfold Fit
  rw [fcC]
  have hh : headerOf fKC.cls fD = fHead := by decide +kernel
  refine ⟨['k'], fD, fKC, rfl, rfl, fFk, by decide, fw, by rw [hh]; decide +kernel, ?_, fun _ => ⟨?_, ?_, ?_⟩, (fun _ => .inl rfl), ?_, ?_, (fun s h => by cases h)⟩
  · rw [hh]
    refine ⟨"Я_Товары".toList, by decide +kernel, ?_⟩
    rw [if_pos (by decide +kernel)]
    exact ⟨"Товары".toList, by decide⟩
  · show some (Val.str ['1']) = some (.str (V8.Dec.showNat 1))
    decide +kernel
  · intro q hq
    have : slotsOf fD = [fForms] := rfl
    rw [this] at hq
    cases List.mem_singleton.mp hq
    exact one_tidy _ _ fG _ (by decide +kernel) (by decide +kernel) (by decide)
  · intro ty v v' u u' h1 h2 _ _ _
    rw [fl] at h1 h2
    have e1 := List.mem_singleton.mp h1
    have e2 := List.mem_singleton.mp h2
    rw [← e2] at e1
    exact (Prod.mk.inj e1).2
  · have : ∀ c ∈ fKC.codes, c.2 ∈ ["3", "0", "1", "1c"].map String.toList := by decide
    exact fun c hm => .inl (fNone _ (this c hm))
  · intro s hs
    cases hs
    exact .inl (fNone _ (by decide))

theorem fFitG : Fit classOf eLim fX fY fF (some ['u']) ['/'] fG (.str ['u']) := by
  unfold Fit
  rw [fcG]
  obtain ⟨h1, h2, h3, h4, h5, h6, h7, h8⟩ := eFormFit
  refine ⟨['u'], eForm, _, _, _, rfl, rfl, eLim_good, ?_, h2, h3, h4, h5, h6, ?_, ?_⟩
  · rw [fFe (by decide)]; exact h1
  · have hh : headerOf (V8.Leaf.plain [1, 1]) eForm = eHead "\"ОО_Выбор\"".toList "\"\"".toList := by decide +kernel
    rw [hh]
    refine ⟨"ОО_Выбор".toList, by decide +kernel, ?_⟩
    rw [if_neg (by decide +kernel)]
    exact .inr (by decide)
  · rw [fFe (by decide), fFe (by decide)]
    exact h8

/-- the catalog with its form: the three files are written again (the module of the form is a source file of its own, C64) and nothing else -/
example (con : Option Text) (ord : Text → List Entry → List Entry) (hord : ∀ id l, (ord id l).Perm l) :
    ∃ dir files, extractTree (handlers classOf eLim fX fY "803".toList) fF (0 + 1 + 1) con fC (.str ['k']) = some (fI, dir) ∧
      buildDir (handlers classOf eLim fX fY "803".toList) ord con "Configuration".toList fC fI.name dir = some ([⟨fC, ['k'], fI.name, .str ['k']⟩], files) ∧
      (∀ m nd, (m, nd) ∈ files ↔ m ∈ [['k'], ['u'], dot ['u'] ['0']] ∧ fF m = some nd) ∧ (dot ['u'] ['0'], .file (braceFile false [eRaw])) ∈ files := by
  obtain ⟨dir, hx⟩ := fTree con
  have hin : ∀ con' ty' v', Inside classOf fX.E fF fC (.str ['k']) con' ty' v' → Fit classOf eLim fX fY fF con' ['/'] ty' v' := by
    intro con' ty' v' hi
    obtain ⟨rfl, rfl, rfl⟩ := (fInside hi).1 rfl rfl
    exact fFitG
  obtain ⟨files, h1, h2⟩ := C61_tree metaTypes classOf eLim fX fY "803".toList fF ord (fun _ => []) _ con fC (.str ['k']) "Configuration".toList fI dir
    C61_classes rfl rfl rfl rfl hord hx (fFitC con) hin (fun h => by cases h)
  have iG : Inside classOf fX.E fF fC (.str ['k']) _ fG (.str ['u']) := .listed fcC fFk fr rfl rfl (by rw [fl]; exact List.mem_cons_self)
  have oC : own classOf fC (.str ['k']) = [dot ['k'] "1".toList, dot ['k'] "1c".toList, ['k'], dot ['k'] "3".toList, dot ['k'] "0".toList] := by
    unfold own; rw [fcC]; decide +kernel
  have oG : own classOf fG (.str ['u']) = [['u'], dot ['u'] ['0'], dot ['u'] ['1']] := by unfold own; rw [fcG]; decide +kernel
  have hall : ∀ m nd, (m, nd) ∈ files ↔ m ∈ [['k'], ['u'], dot ['u'] ['0']] ∧ fF m = some nd := by
    intro m nd
    rw [h2, oC]
    constructor
    · rintro ⟨hm | ⟨con', ty', v', hi, hm⟩, hF⟩
      · refine ⟨?_, hF⟩
        by_cases hk : m = ['k']
        · rw [hk]; exact List.mem_cons_self
        · have h3 : ∀ m ∈ [dot ['k'] "1".toList, dot ['k'] "1c".toList, ['k'], dot ['k'] "3".toList, dot ['k'] "0".toList], m ≠ ['k'] →
              m ∈ ["3", "0", "1", "1c"].map (fun s => dot ['k'] s.toList) := by decide +kernel
          obtain ⟨q, hq, rfl⟩ := List.mem_map.mp (h3 m hm hk)
          rw [fNone q.toList (List.mem_map.mpr ⟨q, hq, rfl⟩)] at hF
          cases hF
      · obtain ⟨rfl, rfl, rfl⟩ := (fInside hi).1 rfl rfl
        refine ⟨?_, hF⟩
        rw [oG] at hm
        by_cases hu : m = dot ['u'] ['1']
        · subst hu
          rw [fFe (by decide), eFm_none (by decide)] at hF
          cases hF
        · have h3 : ∀ m ∈ [['u'], dot ['u'] ['0'], dot ['u'] ['1']], m ≠ dot ['u'] ['1'] → m ∈ [['k'], ['u'], dot ['u'] ['0']] := by decide +kernel
          exact h3 m hm hu
    · rintro ⟨hm, hF⟩
      refine ⟨?_, hF⟩
      have h3 : ∀ m ∈ [['k'], ['u'], dot ['u'] ['0']], m ∈ [dot ['k'] "1".toList, dot ['k'] "1c".toList, ['k'], dot ['k'] "3".toList, dot ['k'] "0".toList] ∨
          m ∈ [['u'], dot ['u'] ['0'], dot ['u'] ['1']] := by decide +kernel
      rcases h3 m hm with h | h
      · exact .inl h
      · exact .inr ⟨_, _, _, iG, by rw [oG]; exact h⟩
  refine ⟨dir, files, hx, h1, hall, (hall _ _).mpr ⟨by decide, ?_⟩⟩
  rw [fFe (by decide)]
  exact eF_0 _ _

end V8.Tree
