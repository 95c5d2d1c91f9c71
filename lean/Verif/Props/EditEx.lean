import Verif.Props.EditNeg
import Verif.Props.RootEx
/-
Examples for C81: the configuration of RootEx is extracted on Windows, the module of the application or the module of the command of a table of an external data source is edited, and the sources are
built on Unix.
-/
namespace V8.Edit
open V8.Brace V8.Enc V8.JsonText V8.Header V8.Store V8.Tree V8.Module V8.Embed
open V8.Root hiding Env Kind
open V8.Nested hiding Handler Env
open V8.Object hiding Cls
open V8.Misc (Cls)

/-- another file in a folder, written over the one that was there -/
def put (n : Text) (b : Bytes) (src : List (Place Node)) : List (Place Node) := src ++ [(n, some (.file b))]

theorem put_same (n : Text) (b : Bytes) (src : List (Place Node)) : folder (put n b src) n = some (.file b) := by
  unfold put folder
  rw [V8.Root.written_append, List.reverse_append]
  have e : (written [(n, some (Node.file b))]).reverse = [(n, .file b)] := rfl
  rw [e, List.cons_append, List.find?_cons]
  simp only [decide_true, Option.map_some]

theorem put_other (n : Text) (b : Bytes) (src : List (Place Node)) (m : Text) (h : m ≠ n) : folder (put n b src) m = folder src m := by
  unfold put folder
  rw [V8.Root.written_append, List.reverse_append]
  have e : (written [(n, some (Node.file b))]).reverse = [(n, .file b)] := rfl
  have h' : decide (n = m) = false := decide_eq_false (fun e => h e.symm)
  rw [e, List.cons_append, List.find?_cons]
  simp only [h', List.nil_append]

/-- a text written by an editor on Windows, with a byte order mark -/
def newText : Text := "Процедура Открыть()\nКонецПроцедуры\n".toList
noncomputable def newFile : Bytes := bom8 ++ utf8 "Процедура Открыть()\r\nКонецПроцедуры\r\n".toList

theorem new_saved : Saved newFile newText := by
  refine ⟨"Процедура Открыть()\r\nКонецПроцедуры\r\n".toList, ?_, by decide +kernel⟩
  unfold newFile
  exact utf8Sig_bom _

theorem new_holds {rnd : Nat → Text} : Holds (pE rnd).y.win .utf8 (if V8.Root.directives .config "803".toList then comment newText else newText) (utf8 newText) := by
  rw [if_neg (by decide +kernel)]
  exact congrArg utf8 (by decide +kernel : newText = osWrite false newText)

/-- the module of the application, a file in UTF-8 -/
example (rnd : Nat → Text) (ord : Text → List Entry → List Entry) (shuf : List Text → List Text) (hord : ∀ id l, (ord id l).Perm l) (hshuf : ∀ l, (shuf l).Perm l) :
    ∃ src subs files files', ∃ names : List Text, extractProduct (pE rnd) (handlers classOf xG xX xY "803".toList) .config "803".toList xF (0 + 1 + 1 + 1) = some (pInfo, .mk src subs) ∧
      buildProduct (pE rnd) (fun v p => handlers classOf xG xX { xY with prod := p } v) ord shuf "f".toList (.mk src subs) = some (.config, files) ∧
      buildProduct (pE rnd) (fun v p => handlers classOf xG xX { xY with prod := p } v) ord shuf "f".toList (.mk (put "Configuration.app.bsl".toList newFile src) subs) = some (.config, files') ∧
      OnlyText "p.6".toList (utf8 newText) files files' ∧ names.Perm (files.map (·.1)) := by
  obtain ⟨⟨src, subs⟩, hx⟩ := pExtract rnd
  obtain ⟨files, files', names, h1, h2, h3, h4, _⟩ := C81_extract_edit_build metaTypes classOf xG (pE rnd) .config "803".toList xF ord shuf xNm _ pInfo src
    (put "Configuration.app.bsl".toList newFile src) subs "f".toList ['h'] ['p'] pRoot pDH ("app".toList, "6".toList) _ _ newFile (utf8 newText) .utf8 newText
    C61_classes rfl rfl rfl rfl rfl C62_no_extension_type C62_same_version hord hshuf (pDetect rnd) hx (pProduct rnd _) (pInner rnd) (by decide) pF5 rfl
    ⟨_, rfl, by decide +kernel⟩ (put_other _ _ _) (put_same _ _ _) new_saved new_holds
  exact ⟨src, subs, files, files', names, hx, h1, h2, h3, h4 (by decide)⟩

/-- the folders of the configuration -/
theorem pFolders (rnd : Nat → Text) : ∃ src s1 s2 s3, innerAll xX xKC xF (xCmd xHC) = some (xIC, s3) ∧
    extractProduct (pE rnd) (handlers classOf xG xX xY "803".toList) .config "803".toList xF (0 + 1 + 1 + 1) = some (pInfo, .mk src (.ofList ([] ++ (xS, xIS.name,
      .mk (nodes s1) (.ofList ([] ++ (xT, xIT.name, .mk (nodes s2) (.ofList ([] ++ (xC, xIC.name, .mk (nodes s3) .nil) :: []))) :: []))) :: []))) := by
  obtain ⟨src, h1⟩ := pRootOut rnd
  obtain ⟨s1, e1⟩ := xeS
  obtain ⟨s2, e2⟩ := xeT
  obtain ⟨s3, e3⟩ := xeC
  have k1 : handlers classOf xG xX xY "803".toList xS = some (handlerOf xG xX xY "803".toList (.file xKS)) := by unfold handlers; rw [xcS, Option.map_some]
  have k2 : handlers classOf xG xX xY "803".toList xT = some (handlerOf xG xX xY "803".toList (.file xKT)) := by unfold handlers; rw [xcT, Option.map_some]
  have k3 : handlers classOf xG xX xY "803".toList xC = some (handlerOf xG xX xY "803".toList (.inner xKC)) := by unfold handlers; rw [xcC, Option.map_some]
  have o1 : ∀ con, (handlerOf xG xX xY "803".toList (.file xKS)).out con xF (.str ['a']) = some (xIS, [⟨xT, ['b'], .str ['b']⟩], nodes s1) := by intro con; rw [file_out, e1, Option.map_some]
  have o2 : ∀ con, (handlerOf xG xX xY "803".toList (.file xKT)).out con xF (.str ['b']) = some (xIT, [⟨xC, ['c'], xCmd xHC⟩], nodes s2) := by intro con; rw [file_out, e2, Option.map_some]
  have o3 : ∀ con, (handlerOf xG xX xY "803".toList (.inner xKC)).out con xF (xCmd xHC) = some (xIC, [], nodes s3) := by
    intro con
    rw [xCmd, inner_out, ← xCmd, e3, Option.map_some]
  have t3 : ∀ con, extractTree (handlers classOf xG xX xY "803".toList) xF (0 + 1) con xC (xCmd xHC) = some (xIC, .mk (nodes s3) (.ofList [])) := fun con =>
    tree_step k3 (o3 con) (by rw [extractKids]) .nil
  have t2 := fun con => tree_step (F := xF) k2 (o2 con) (one_kid (o := ⟨xC, ['c'], xCmd xHC⟩) (t3 _)) (one_nodup _)
  have t1 := fun con => tree_step (F := xF) k1 (o1 con) (one_kid (o := ⟨xT, ['b'], .str ['b']⟩) (t2 _)) (one_nodup _)
  refine ⟨nodes src, s1, s2, s3, e3, ?_⟩
  unfold extractProduct
  rw [h1, Option.bind_some]
  simp only
  rw [one_kid (o := ⟨xS, ['a'], .str ['a']⟩) (t1 _), Option.bind_some, if_pos (one_nodup _)]
  rfl

/-- the module of the command inside the table of the source -/
example (rnd : Nat → Text) (ord : Text → List Entry → List Entry) (shuf : List Text → List Text) (hord : ∀ id l, (ord id l).Perm l) (hshuf : ∀ l, (shuf l).Perm l) :
    ∃ dir dir' files files', extractProduct (pE rnd) (handlers classOf xG xX xY "803".toList) .config "803".toList xF (0 + 1 + 1 + 1) = some (pInfo, dir) ∧
      buildProduct (pE rnd) (fun v p => handlers classOf xG xX { xY with prod := p } v) ord shuf "f".toList dir = some (.config, files) ∧
      buildProduct (pE rnd) (fun v p => handlers classOf xG xX { xY with prod := p } v) ord shuf "f".toList dir' = some (.config, files') ∧
      OnlyText "c.2".toList (utf8 newText) files files' := by
  obtain ⟨src, s1, s2, s3, e3, hx⟩ := pFolders rnd
  obtain ⟨bi, j, _, _, _, h1, h2, h3, _⟩ := (inner_recorded (C61_classes.inner _ _ xcC).1 e3).2 (m := ("obj".toList, "2".toList)) List.mem_cons_self xFc rfl
    (en := .utf8) ⟨_, rfl, by decide +kernel⟩
  have he : EditedAt (TextEdit classOf ['c'] ("obj".toList, "2".toList) newText) xC (.mk (nodes s3) .nil) (.mk (put "ExternalDataSourceTableCommand.obj.bsl".toList newFile (nodes s3)) .nil) :=
    .here ⟨_, xKC, xcC, rfl, List.mem_cons_self, ⟨bi, j, at_file.mpr h1, h2, h3⟩, put_other _ _ _, newFile, put_same _ _ _, new_saved⟩
  obtain ⟨files, files', _, a1, a2, a3, _⟩ := C81_extract_edit_build_nested metaTypes classOf xG (pE rnd) .config "803".toList xF ord shuf xNm _ pInfo src [] [] xS xIS.name
    _ _ "f".toList ['h'] ['p'] pRoot pDH ['c'] ("obj".toList, "2".toList) _ _ (utf8 newText) .utf8 newText
    C61_classes rfl rfl rfl rfl rfl C62_no_extension_type C62_same_version hord hshuf (pDetect rnd) hx (pProduct rnd _) (pInner rnd) xFc rfl
    ⟨_, rfl, by decide +kernel⟩ (.deeper (l := []) (r := []) (.deeper (l := []) (r := []) he)) (congrArg utf8 (by decide +kernel : newText = osWrite false newText))
  exact ⟨_, _, files, files', hx, a1, a2, a3⟩

/-- a module of the session is added to the sources of the configuration, which has none -/
example (rnd : Nat → Text) (ord : Text → List Entry → List Entry) (shuf : List Text → List Text) : ∃ src subs,
    extractProduct (pE rnd) (handlers classOf xG xX xY "803".toList) .config "803".toList xF (0 + 1 + 1 + 1) = some (pInfo, .mk src subs) ∧
    buildProduct (pE rnd) (fun v p => handlers classOf xG xX { xY with prod := p } v) ord shuf "f".toList (.mk (put "Configuration.seance.bsl".toList newFile src) subs) =
      buildProduct (pE rnd) (fun v p => handlers classOf xG xX { xY with prod := p } v) ord shuf "f".toList (.mk src subs) := by
  obtain ⟨⟨src, subs⟩, hx⟩ := pExtract rnd
  exact ⟨src, subs, hx, C81_added_after_extraction_neg classOf xG (pE rnd) .config "803".toList xF ord shuf _ pInfo src (put "Configuration.seance.bsl".toList newFile src) subs "f".toList
    ['h'] ['p'] pRoot pDH ("seance".toList, "7".toList) C62_no_extension_type C62_same_version (pDetect rnd) hx (pProduct rnd _) (by decide) (pFx _ (by decide +kernel)) (put_other _ _ _)⟩

/-- a text that windows-1251 does not have, and one it has -/
example : cpBytes (osWrite true "Перем Δ;
".toList) = none ∧ (cpBytes (osWrite true "Перем Д;
".toList)).isSome = true := by decide +kernel

/-- a module in windows-1251 and one with a byte order mark -/
example : KeptIn [0xC4, 0x3B] .cp1251 ∧ KeptIn (bom8 ++ utf8 "А;".toList) .utf8sig ∧ HasText (.file [0xC4, 0x3B]) [0xC4, 0x3B] :=
  ⟨⟨by decide +kernel, "Д;".toList, by decide +kernel⟩, ⟨_, rfl⟩, rfl⟩

end V8.Edit
