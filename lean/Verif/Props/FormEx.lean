import Verif.Props.FormSpec
import Verif.Props.LeafEx
/-
Examples for C64: a managed form of a catalog and an ordinary common form, extracted on Windows with a prefix and built on Unix.
-/
namespace V8.FormObj
open V8.Brace V8.Enc V8.JsonText V8.Header V8.Object V8.FormJson
open V8.Store hiding Kind
open V8.Leaf (eX eY eHead eSep eF eF_u eF_0 ePre eInfo)
open V8.Module (EncName Code readRaw writeText writeDecode readCode getset formCodeOut tokIn Rebuilt strDecode)
open V8.Product (getAt setAt)

/-- extraction succeeds when each of its steps does -/
theorem formOut_of {x : Ext} {g : Lim} {con : Option Text} {f : FCls} {F : Text → Option Node} {u : Text} {b : Bytes} {d : List (List Val)} {c : Cls × Text}
    {hd h' : List Val} {info : Info} {r : Val} {ty : Text} {z : Zero} {one : List File} {v : Text × Option Decoder} {e : List File × JT}
    (h1 : F u = some (.file b)) (h2 : braceRead b = some d) (h3 : clsAt (rootVal d) f.site = some c)
    (h4 : getAt (rootVal d) c.1.path = some (.list hd)) (h5 : decodeHeader x.valid x.p true hd = .ok (info, h'))
    (h6 : setAt (rootVal d) c.1.path (.list h') = some r) (h7 : typeAt (rootVal d) f.site = some ty)
    (h8 : zeroOut ty (F (dot info.uuid ['0'])) = some z) (h9 : oneOut (fileAt F (dot info.uuid ['1'])) = some one)
    (h10 : decoderOf ty (firstOf ty z ++ one) = some v) (h11 : elemsOut g x.auto con v.2 (firstOf ty z ++ one) = some e) :
    ∃ src, formOut x g con f F u = some (info, src) := by
  unfold formOut
  rw [h1]
  simp only [h2, Option.bind_some, h3, h4, h5, h6, h7, h8, h9, h10, h11, Option.map_some]
  exact ⟨_, rfl⟩

def eLim : Lim := ⟨9, fun _ => []⟩
theorem eLim_good : eLim.Good := fun _ => List.nodup_nil

theorem eF_1 (d : List (List Val)) (n : Option Node) : eF d n (dot ['u'] ['1']) = none := by
  unfold eF
  rw [if_neg (by decide), if_neg (by decide)]

/-! ### a managed form -/

/-- the object of the form, of a class with its data at [0][1][1], version 13 -/
def eForm : List (List Val) :=
  [[.str ['1'], .list [.str ['0'], .list [.str "13".toList, .list (eHead "\"ОО_Выбор\"".toList "\"\"".toList), .str ['0'], .str ['1'], .str ['0']]]]]

def eCode : Text := "Сообщить(\"да\");\nКонец".toList

/-- the sample of C30 with a module -/
def eRaw : List Val := V8.Form.sample.set 2 (.str (quoted eCode))

def eSite : FCls := ⟨"CatalogForm".toList, .form1⟩

theorem eW_form : WFFile eForm := fileB_ok eForm (by decide +kernel)
set_option maxRecDepth 20000 in
theorem eW_raw : WFFile [eRaw] := fileB_ok [eRaw] (by decide +kernel)
theorem eR_form : braceRead (braceFile false eForm) = some eForm := C59_brace_file_round_trip false eForm (by decide) eW_form
theorem eR_raw : braceRead (braceFile false [eRaw]) = some [eRaw] := C59_brace_file_round_trip false [eRaw] (by decide) eW_raw

set_option maxRecDepth 20000 in
theorem eRaw_some : (V8.Form.decodeForm 9 (some ['u']) eRaw).isSome = true := by decide +kernel

set_option maxRecDepth 20000 in
theorem eManaged : ManagedOk eLim (some ['u']) eRaw := by
  refine .inl ⟨((V8.Form.decodeForm 9 (some ['u']) eRaw).get eRaw_some).1, ((V8.Form.decodeForm 9 (some ['u']) eRaw).get eRaw_some).2, (Option.some_get eRaw_some).symm,
    by decide +kernel, by decide +kernel⟩

noncomputable def eFm : Text → Option Node := eF eForm (some (.file (braceFile false [eRaw])))

theorem eFormFit : FormFit eX eY eLim (some ['u']) eFm eSite ['u'] eForm (Leaf.plain [1, 1]) "13".toList ['1'] := by
  have hh : getAt (rootVal eForm) (Leaf.plain [1, 1]).path = some (.list (eHead ('"' :: "ОО_".toList ++ "Выбор".toList ++ ['"']) "\"\"".toList)) := by
    decide +kernel
  have hhd : headerOf (Leaf.plain [1, 1]) eForm = eHead ('"' :: "ОО_".toList ++ "Выбор".toList ++ ['"']) "\"\"".toList := by unfold headerOf; rw [hh]
  refine ⟨eF_u _ _, by decide, eW_form, by decide +kernel, by decide +kernel, ?_, ?_, ?_⟩
  · rw [hhd]; exact ⟨_, rfl, rfl⟩
  · rw [hhd]; exact ePre _ _
  · unfold eFm
    rw [eF_0, eF_1]
    exact .managed eRaw [] eCode none eW_raw (.inl rfl) (by decide +kernel) (by decide +kernel) (by decide) (by decide) eManaged

theorem eFormOut : ∃ src, formOut eX eLim (some ['u']) eSite eFm ['u'] = some (eInfo "Выбор".toList [], src) := by
  have hgs : getset [eRaw] elsewhereCode = .ok (quoted eCode, [eRaw.set 2 (.str elsewhereCode)]) := by
    rw [getset, if_pos ⟨by decide +kernel, by decide +kernel⟩]
    rfl
  have hz : zeroOut ['1'] (eFm (dot ['u'] ['0'])) = some (.inline [eRaw.set 2 (.str elsewhereCode)] (formCodeOut (quoted eCode))) := by
    unfold eFm
    rw [eF_0]
    unfold zeroOut
    rw [if_neg (by decide)]
    simp only [eR_raw, Option.bind_some, hgs]
  have ho : oneOut (fileAt eFm (dot ['u'] ['1'])) = some [] := by
    unfold eFm fileAt
    rw [eF_1]
    rfl
  have he : ∃ e, elemsOut eLim eX.auto (some ['u']) (some .managed) [[eRaw.set 2 (.str elsewhereCode)]] = some e := by
    unfold elemsOut
    simp only
    split <;> exact ⟨_, rfl⟩
  obtain ⟨e, he⟩ := he
  exact formOut_of (eF_u _ _) eR_form (c := (Leaf.plain [1, 1], "13".toList)) (by decide +kernel)
    (hd := eHead "\"ОО_Выбор\"".toList "\"\"".toList) (by decide +kernel) (h' := eSep "\"Выбор\"".toList "\"\"".toList) (by decide +kernel)
    (r := .list [.list [.str ['1'], .list [.str ['0'], .list [.str "13".toList, .list (eSep "\"Выбор\"".toList "\"\"".toList), .str ['0'], .str ['1'], .str ['0']]]]])
    (by decide +kernel) (ty := ['1']) (by decide +kernel) hz ho (v := (['1'], some .managed)) rfl he

/-- the form comes back with its two files; its code is in the sources; with another text there it is built with that text -/
example : ∃ src, formOut eX eLim (some ['u']) eSite eFm ['u'] = some (eInfo "Выбор".toList [], src) ∧
    (∃ files, formBack eY eLim (some ['u']) eSite (folder src) = some (some ⟨['u'], "Выбор".toList, .str ['u']⟩, files) ∧
      (dot ['u'] ['0'], Node.file (braceFile false [eRaw])) ∈ files ∧ ∀ nd, (dot ['u'] ['1'], nd) ∉ files) ∧
    fileIn (folder src) "CatalogForm.obj.bsl".toList = some (utf8 (osWrite true eCode)) := by
  obtain ⟨src, hs⟩ := eFormOut
  obtain ⟨files, h1, h2⟩ := C64_object eX eY eLim _ eSite eFm _ _ _ _ _ _ src eFormFit rfl rfl eLim_good hs
  refine ⟨src, hs, ⟨files, h1, (h2 _ _).mpr ⟨.inr (.inl rfl), eF_0 _ _⟩, ?_⟩, ?_⟩
  · intro nd h
    have h3 := ((h2 _ _).mp h).2
    have h4 : eFm (dot ['u'] ['1']) = none := eF_1 _ _
    rw [h4] at h3
    cases h3
  · have h := C64_managed_code eX eLim _ eSite eFm ['u'] _ src (rootVal eForm) eRaw [] (braceFile false [eRaw]) eCode
      ⟨_, _, eF_u _ _, eR_form, rfl⟩ (by decide +kernel) hs (eF_0 _ _) eR_raw (by decide +kernel) (by decide +kernel)
    rw [if_neg (by decide)] at h
    exact h

/-- an edited module -/
example (t : Text) (w : Bool) (cr : '\r' ∉ t) (mark : t.head? ≠ some bom) : ∃ src S, formOut eX eLim (some ['u']) eSite eFm ['u'] = some (eInfo "Выбор".toList [], src) ∧
    (∀ n, n ≠ "CatalogForm.obj.bsl".toList → S n = folder src n) ∧
    ∃ files, formBack eY eLim (some ['u']) eSite S = some (some ⟨['u'], "Выбор".toList, .str ['u']⟩, files) ∧
      (dot ['u'] ['0'], Node.file (braceFile false [eRaw.set 2 (.str (quoted t))])) ∈ files := by
  obtain ⟨src, hs⟩ := eFormOut
  have h := C64_edited_module (S := fun n => if n = "CatalogForm.obj.bsl".toList then some (.file (utf8 (osWrite w t))) else folder src n) eRaw [] eCode t w
    eFormFit (eF_0 _ _) eW_raw (.inl (eF_1 _ _)) (by decide +kernel) (by decide +kernel) eManaged rfl eLim_good hs cr mark (if_pos rfl)
    (fun n hn => if_neg hn)
  refine ⟨src, _, hs, ?_, _, h, ?_⟩
  · intro n hn
    exact if_neg hn
  · exact List.mem_filterMap.mpr ⟨_, List.mem_cons_of_mem _ List.mem_cons_self, rfl⟩

/-! ### an ordinary form -/

/-- the object of the form, of a class with its data at [0][1], version 9; three values: the type is 0 -/
def oForm : List (List Val) := [[.str ['1'], .list [.str ['9'], .list (eHead "\"ОО_Список\"".toList "\"\"".toList), .str ['0']]]]
def oText : Text := "Процедура А()\n// v8unpack &НаКлиенте\nКонецПроцедуры\n".toList
def oSite : FCls := ⟨"TaskForm".toList, .form0⟩
noncomputable def oModule : Bytes := utf8 oText
noncomputable def oFm : Text → Option Node := eF oForm (some (.dir (formDir (braceFile false [V8.OForm.sampleForm]) oModule)))

theorem oW_form : WFFile oForm := fileB_ok oForm (by decide +kernel)
set_option maxRecDepth 20000 in
theorem oW_raw : WFFile [V8.OForm.sampleForm] := fileB_ok [V8.OForm.sampleForm] (by decide +kernel)
theorem oR_form : braceRead (braceFile false oForm) = some oForm := C59_brace_file_round_trip false oForm (by decide) oW_form
theorem oR_raw : braceRead (braceFile false [V8.OForm.sampleForm]) = some [V8.OForm.sampleForm] :=
  C59_brace_file_round_trip false [V8.OForm.sampleForm] (by decide) oW_raw

set_option maxRecDepth 20000 in
theorem oRaw_some : (V8.OForm.formOut 4 9 V8.OForm.sampleForm).isSome = true := by decide +kernel

set_option maxRecDepth 20000 in
theorem oElems : OrdinaryOk eLim 4 V8.OForm.sampleForm false := by
  exact ⟨((V8.OForm.formOut 4 9 V8.OForm.sampleForm).get oRaw_some).1, ((V8.OForm.formOut 4 9 V8.OForm.sampleForm).get oRaw_some).2, (Option.some_get oRaw_some).symm,
    by decide +kernel, by decide +kernel⟩

theorem oDecoder : decoderOf ['0'] [[V8.OForm.sampleForm]] = some ("0-27".toList, some (.ordinary 4 27)) := by decide +kernel

theorem oRebuilt : Rebuilt false true oModule oModule := (V8.Module.C49_utf8_same_iff false true oText).mpr (by decide +kernel)

theorem oText_utf8 : utf8Text oModule ≠ none := by
  unfold oModule
  rw [utf8Text_utf8]
  simp

theorem oFormFit : FormFit eX eY eLim none oFm oSite ['u'] oForm (Leaf.plain [1]) "9".toList ['0'] := by
  have hh : getAt (rootVal oForm) (Leaf.plain [1]).path = some (.list (eHead ('"' :: "ОО_".toList ++ "Список".toList ++ ['"']) "\"\"".toList)) := by
    decide +kernel
  have hhd : headerOf (Leaf.plain [1]) oForm = eHead ('"' :: "ОО_".toList ++ "Список".toList ++ ['"']) "\"\"".toList := by unfold headerOf; rw [hh]
  refine ⟨eF_u _ _, by decide, oW_form, by decide +kernel, by decide +kernel, ?_, ?_, ?_⟩
  · rw [hhd]; exact ⟨_, rfl, rfl⟩
  · rw [hhd]; exact ePre _ _
  · unfold oFm
    rw [eF_0, eF_1]
    refine .ordinary V8.OForm.sampleForm [] oModule none oW_raw (.inl rfl) oRebuilt (.inl oText_utf8) ?_
    intro v ni ver hv
    rw [oDecoder] at hv
    cases hv
    exact oElems

theorem oOut (raw : List Val) (hR : braceRead (braceFile false [raw]) = some [raw])
    (hD : decoderOf ['0'] [[raw]] = some ("0-27".toList, some (.ordinary 4 27))) :
    ∃ src, formOut eX eLim none oSite (eF oForm (some (.dir (formDir (braceFile false [raw]) oModule)))) ['u'] = some (eInfo "Список".toList [], src) := by
  have hz : zeroOut ['0'] ((eF oForm (some (.dir (formDir (braceFile false [raw]) oModule)))) (dot ['u'] ['0'])) = some (.apart [raw] (readRaw true (some oModule)).1 (readRaw true (some oModule)).2) := by
    rw [eF_0]
    unfold zeroOut
    rw [if_pos rfl]
    have e1 : formDir (braceFile false [raw]) oModule "form".toList = some (braceFile false [raw]) := by unfold formDir; rw [if_pos rfl]
    have e2 : formDir (braceFile false [raw]) oModule "module".toList = some oModule := by unfold formDir; rw [if_neg (by decide), if_pos rfl]
    simp only [e1, e2, hR, Option.bind_some, Option.map_some]
  have ho : oneOut (fileAt (eF oForm (some (.dir (formDir (braceFile false [raw]) oModule)))) (dot ['u'] ['1'])) = some [] := by
    unfold fileAt
    rw [eF_1]
    rfl
  have he : ∃ e, elemsOut eLim eX.auto none (some (.ordinary 4 27)) [[raw]] = some e := by
    show ∃ e, elemsOut eLim false none (some (.ordinary 4 27)) [[raw]] = some e
    simp only [elemsOut, Bool.false_eq_true, if_false]
    exact ⟨_, rfl⟩
  obtain ⟨e, he⟩ := he
  exact formOut_of (eF_u _ _) oR_form (c := (Leaf.plain [1], "9".toList)) (by decide +kernel)
    (hd := eHead "\"ОО_Список\"".toList "\"\"".toList) (by decide +kernel) (h' := eSep "\"Список\"".toList "\"\"".toList) (by decide +kernel)
    (r := .list [.list [.str ['1'], .list [.str ['9'], .list (eSep "\"Список\"".toList "\"\"".toList), .str ['0']]]])
    (by decide +kernel) (ty := ['0']) (by decide +kernel) hz ho (v := ("0-27".toList, some (.ordinary 4 27))) hD he

theorem oFormOut : ∃ src, formOut eX eLim none oSite oFm ['u'] = some (eInfo "Список".toList [], src) := oOut V8.OForm.sampleForm oR_raw oDecoder

/-- the form comes back with its folder; in the sources the directive of its module is uncommented -/
example : ∃ src, formOut eX eLim none oSite oFm ['u'] = some (eInfo "Список".toList [], src) ∧
    (∃ files, formBack eY eLim none oSite (folder src) = some (some ⟨['u'], "Список".toList, .str ['u']⟩, files) ∧
      (dot ['u'] ['0'], Node.dir (formDir (braceFile false [V8.OForm.sampleForm]) oModule)) ∈ files) ∧
    fileIn (folder src) "TaskForm.obj.bsl".toList = some (utf8 "Процедура А()\r\n&НаКлиенте\r\nКонецПроцедуры\r\n".toList) := by
  obtain ⟨src, hs⟩ := oFormOut
  obtain ⟨files, h1, h2⟩ := C64_object eX eY eLim _ oSite oFm _ _ _ _ _ _ src oFormFit rfl rfl eLim_good hs
  refine ⟨src, hs, ⟨files, h1, (h2 _ _).mpr ⟨.inr (.inl rfl), eF_0 _ _⟩⟩, ?_⟩
  have h := C64_ordinary_code eX eLim _ oSite oFm ['u'] _ src (rootVal oForm) _ oText
    ⟨_, _, eF_u _ _, oR_form, rfl⟩ (by decide +kernel) hs (eF_0 _ _) (by unfold formDir; rw [if_neg (by decide), if_pos rfl]; rfl) (by decide)
  have e : osWrite eX.win (V8.Module.uncomment (universal oText)) = "Процедура А()\r\n&НаКлиенте\r\nКонецПроцедуры\r\n".toList := by decide +kernel
  rw [e] at h
  exact h

/-! ### an ordinary form with the option auto_include -/

def aLim : Lim := ⟨5, fun _ => []⟩
theorem aLim_good : aLim.Good := fun _ => List.nodup_nil
def aX : Ext := { eX with auto := true }
def aY : Bld := { eY with auto := true }
def aRaw : List Val := V8.OAuto.sampleNew
noncomputable def aFm : Text → Option Node := eF oForm (some (.dir (formDir (braceFile false [aRaw]) oModule)))
set_option maxRecDepth 20000 in
theorem aW_raw : WFFile [aRaw] := fileB_ok [aRaw] (by decide +kernel)
theorem aR_raw : braceRead (braceFile false [aRaw]) = some [aRaw] := C59_brace_file_round_trip false [aRaw] (by decide) aW_raw
set_option maxRecDepth 20000 in
theorem aDecoder : decoderOf ['0'] [[aRaw]] = some ("0-27".toList, some (.ordinary 4 27)) := by decide +kernel
set_option maxRecDepth 20000 in
theorem aRaw_some : (V8.OAuto.formOut 4 5 aRaw).isSome = true := by decide +kernel

theorem aOut (raw : List Val) (hR : braceRead (braceFile false [raw]) = some [raw])
    (hD : decoderOf ['0'] [[raw]] = some ("0-27".toList, some (.ordinary 4 27))) :
    ∃ src, formOut aX aLim none oSite (eF oForm (some (.dir (formDir (braceFile false [raw]) oModule)))) ['u'] = some (eInfo "Список".toList [], src) := by
  have hz : zeroOut ['0'] ((eF oForm (some (.dir (formDir (braceFile false [raw]) oModule)))) (dot ['u'] ['0'])) = some (.apart [raw] (readRaw true (some oModule)).1 (readRaw true (some oModule)).2) := by
    rw [eF_0]
    unfold zeroOut
    rw [if_pos rfl]
    have e1 : formDir (braceFile false [raw]) oModule "form".toList = some (braceFile false [raw]) := by unfold formDir; rw [if_pos rfl]
    have e2 : formDir (braceFile false [raw]) oModule "module".toList = some oModule := by unfold formDir; rw [if_neg (by decide), if_pos rfl]
    simp only [e1, e2, hR, Option.bind_some, Option.map_some]
  have ho : oneOut (fileAt (eF oForm (some (.dir (formDir (braceFile false [raw]) oModule)))) (dot ['u'] ['1'])) = some [] := by
    unfold fileAt
    rw [eF_1]
    rfl
  have he : ∃ e, elemsOut aLim aX.auto none (some (.ordinary 4 27)) [[raw]] = some e := by
    show ∃ e, elemsOut aLim true none (some (.ordinary 4 27)) [[raw]] = some e
    simp only [elemsOut, if_true]
    exact ⟨_, rfl⟩
  obtain ⟨e, he⟩ := he
  exact formOut_of (eF_u _ _) oR_form (c := (Leaf.plain [1], "9".toList)) (by decide +kernel)
    (hd := eHead "\"ОО_Список\"".toList "\"\"".toList) (by decide +kernel) (h' := eSep "\"Список\"".toList "\"\"".toList) (by decide +kernel)
    (r := .list [.list [.str ['1'], .list [.str ['9'], .list (eSep "\"Список\"".toList "\"\"".toList), .str ['0']]]])
    (by decide +kernel) (ty := ['0']) (by decide +kernel) hz ho (v := ("0-27".toList, some (.ordinary 4 27))) hD he

theorem aFormOut : ∃ src, formOut aX aLim none oSite aFm ['u'] = some (eInfo "Список".toList [], src) := aOut aRaw aR_raw aDecoder

set_option maxRecDepth 20000 in
/-- C64_ordinary_auto_partial applies to the form C69's sample is built into: two pages, a panel with fields, references between them -/
example : ∃ src files, formOut aX aLim none oSite aFm ['u'] = some (eInfo "Список".toList [], src) ∧
    formBack aY aLim none oSite (folder src) = some (some ⟨['u'], "Список".toList, .str ['u']⟩, files) ∧
      (dot ['u'] ['0'], Node.dir (formDir (braceFile false [aRaw]) oModule)) ∈ files := by
  obtain ⟨src, hs⟩ := aFormOut
  have hh : getAt (rootVal oForm) (Leaf.plain [1]).path = some (.list (eHead ('"' :: "ОО_".toList ++ "Список".toList ++ ['"']) "\"\"".toList)) := by
    decide +kernel
  have hhd : headerOf (Leaf.plain [1]) oForm = eHead ('"' :: "ОО_".toList ++ "Список".toList ++ ['"']) "\"\"".toList := by unfold headerOf; rw [hh]
  obtain ⟨files, h1, h2⟩ := C64_ordinary_auto_partial (x := aX) (y := aY) (g := aLim) (con := none) (F := aFm) (f := oSite) (u := ['u']) (d := oForm)
    (c := Leaf.plain [1]) (ver := "9".toList) aRaw ((V8.OAuto.formOut 4 5 aRaw).get aRaw_some).1 [] oModule
    ((V8.OAuto.formOut 4 5 aRaw).get aRaw_some).2 4 (eF_u _ _) (by decide) oW_form (by decide +kernel) (by decide +kernel)
    (by rw [hhd]; exact ⟨_, rfl, rfl⟩) (by rw [hhd]; exact ePre _ _) (eF_0 _ _) aW_raw (.inl (eF_1 _ _)) oRebuilt (.inl oText_utf8)
    (.inr ⟨by decide +kernel, rfl⟩) rfl (Option.some_get aRaw_some).symm (by decide +kernel)
    (V8.OAuto.tidyMain_of _ (by decide +kernel)) (by decide +kernel) (by decide +kernel)
    (by
      have : ((V8.OAuto.formOut 4 5 aRaw).get aRaw_some).2.data.all (fun e => decide (V8.OAuto.insideRef e.1 = V8.OForm.inside e.1)) = true := by decide +kernel
      exact fun e he => of_decide_eq_true (List.all_eq_true.mp this e he))
    (V8.OAuto.tidyAttrs_of _ (by decide +kernel)) ⟨_, rfl⟩ rfl rfl aLim_good hs
  exact ⟨src, files, hs, h1, (h2 _ _).mpr ⟨.inr (.inl rfl), eF_0 _ _⟩⟩

/-! ### the classes and the recorded page -/

/-- C64.  Which classes keep the data of the form at the top of the object (`Form0`), which one level below (`Form1`), which beside the header
(`Form`): one line per class, as in /repo/src/v8unpack/MetaDataObject/*Form.py; no name occurs twice. -/
theorem C64_form_classes :
    (∀ n ∈ ["AccountingRegisterForm", "BusinessProcessForm", "ChartOfAccountsForm", "ChartOfCharacteristicTypeForm", "ExternalDataSourceCubeForm",
      "ExternalDataSourceTableForm", "TaskForm"], (⟨n.toList, .form0⟩ : FCls) ∈ forms) ∧
    (∀ n ∈ ["AccumulationRegisterForm", "CalculationRegisterForm", "CatalogForm", "ChartOfCalculationTypesForm", "CommonForm", "DocumentForm",
      "DocumentJournalForm", "EnumForm", "ExchangePlanForm", "FilterCriterionForm", "InformationRegisterForm", "SettingsStorageForm"],
      (⟨n.toList, .form1⟩ : FCls) ∈ forms) ∧
    (∀ n ∈ ["Form", "ReportForm"], (⟨n.toList, .form⟩ : FCls) ∈ forms) ∧ (forms.map (·.name)).Nodup ∧ forms.length = 21 := by
  decide +kernel

/-- C64.  With an element of an ordinary form the file of the elements records the key of its page: the key of the element without its name. -/
theorem C64_page_recorded (page name : Text) (raw : List Val) (hn : name ≠ [])
    (h : (V8.OForm.fromEnd raw 2).bind (V8.Form.nameAt · 1) = some name) : pageKey (page ++ '/' :: name) raw = page := by
  unfold pageKey
  rw [h, Option.getD_some]
  cases name with
  | nil => exact absurd rfl hn
  | cons c r =>
    show List.take ((page ++ '/' :: c :: r).length - (c :: r).length - 1) (page ++ '/' :: c :: r) = page
    have : (page ++ '/' :: c :: r).length - (c :: r).length - 1 = page.length := by
      simp only [List.length_append, List.length_cons]
      omega
    rw [this, List.take_left]

end V8.FormObj
