import Verif.Props.RootNeg
import Verif.Props.RootEx
/-
C62: what the sources of a product look like - which files, and what is in its modules.
-/
namespace V8.Root
open V8.Brace V8.Enc V8.JsonText V8.Header V8.Store V8.Tree
open V8.Nested hiding Env Handler
open V8.Object hiding Cls
open V8.Misc (Cls)
open V8.Product (getAt setAt)

/-- what stands in a list of modules stands among their source files -/
theorem codesOut_mem {win cd : Bool} {k : Text} {F : Text → Option Node} {u : Text} : ∀ {cs : List (Text × Text)}
    {r : List (Place JT) × List (Place Bytes)}, codesOut win cd k F u cs = some r → ∀ c ∈ cs, ∃ q, codeOut win cd k F u c = some q ∧
      (∀ p ∈ q.1, p ∈ r.1) ∧ ∀ p ∈ q.2, p ∈ r.2
  | [], r, h, c, hc => by cases hc
  | a :: cs, r, h, c, hc => by
    rw [codesOut] at h
    simp only [Option.bind_eq_some_iff, Option.map_eq_some_iff] at h
    obtain ⟨q, hq, s, hs, rfl⟩ := h
    rcases List.mem_cons.mp hc with rfl | hc
    · exact ⟨q, hq, fun p hp => List.mem_append_left _ hp, fun p hp => List.mem_append_left _ hp⟩
    · obtain ⟨q', h1, h2, h3⟩ := codesOut_mem hs c hc
      exact ⟨q', h1, fun p hp => List.mem_append_right _ (h2 p hp), fun p hp => List.mem_append_right _ (h3 p hp)⟩

/-- the source of a module in a UTF-8 file, without byte order mark -/
theorem extractModule_utf8 (win cd : Bool) (t : Text) (ht : t ≠ []) :
    (V8.Module.extractModule win cd (.file (utf8 t))).bsl =
      some (utf8 (osWrite win (if cd then V8.Module.uncomment (universal t) else universal t))) := by
  have hne : (if cd then V8.Module.uncomment (universal t) else universal t) ≠ [] := by
    have h1 : universal t ≠ [] := by
      cases t with
      | nil => exact absurd rfl ht
      | cons c t =>
        rw [universal.eq_def]
        split <;> simp_all
    cases cd with
    | false => exact h1
    | true =>
      show V8.Module.uncomment (universal t) ≠ []
      cases hu : universal t with
      | nil => exact absurd hu h1
      | cons c r =>
        rw [V8.Module.uncomment]
        by_cases hc : c = '\n' ∧ V8.Module.atMarked r = true
        · rw [if_pos hc]; exact List.cons_ne_nil _ _
        · rw [if_neg hc]; exact List.cons_ne_nil _ _
  have hb : V8.Module.bomName (utf8 t) ≠ .bin := by
    unfold V8.Module.bomName
    split <;> intro h <;> cases h
  simp only [V8.Module.extractModule, V8.Module.readRaw, utf8Text_utf8, V8.Module.writeDecode, if_neg hne, if_neg hb]
  rfl

/-- **C62, modules.**  The source of a module of a product is the text that stands in the container, with the line ends of the platform; the
directives put behind a marker are uncovered for the configurations, external data processors and reports of the formats 8.1 and 8.2, and never for
an extension. -/
theorem C62_module_source (e : Env) (c : Cls) (ver : Text) (F : Text → Option Node) (info : Info) (os : List Obj) (src : List (Place Bytes))
    (hx : rootOut e c ver F = some (info, os, src)) (n s t : Text) (hc : (n, s) ∈ (kindOf c).codes)
    (hF : F (dot info.uuid s) = some (.file (utf8 t))) (ht : t ≠ []) :
    ((c = .extension ∨ (ver ≠ "801".toList ∧ ver ≠ "802".toList)) →
      folder src (bslName (kindOf c).name n) = some (utf8 (osWrite e.x.win (universal t)))) ∧
    (c ≠ .extension → (ver = "801".toList ∨ ver = "802".toList) →
      folder src (bslName (kindOf c).name n) = some (utf8 (osWrite e.x.win (V8.Module.uncomment (universal t))))) := by
  obtain ⟨root, fu, v, hd, h', h1, b, ps, w, g1, g2, g3, g4, g5, g6, g7, g8, g9, rfl⟩ := rootOut_some hx
  obtain ⟨r1, r2, r3, r4⟩ := description_read (ver := ver) (t := w) g7 (decode_names g5)
  obtain ⟨front, other, compat, vb, parts, k1, k2, k3, k4, k5, rfl⟩ := besideOut_some g7
  have hnd := r4 ▸ sources_nodup c
  unfold partsOut at k5
  simp only [Option.bind_eq_some_iff, Option.map_eq_some_iff] at k5
  obtain ⟨help, _, image, _, files, _, codes, hcodes, infos, _, rfl⟩ := k5
  obtain ⟨q, hq, _, hq2⟩ := codesOut_mem hcodes (n, s) hc
  unfold codeOut at hq
  rw [hF] at hq
  cases hq
  have hm := hq2 _ List.mem_cons_self
  have hfold : ∀ z, (bslName (kindOf c).name n, z) = (bslName (kindOf c).name n, (V8.Module.extractModule e.x.win (directives c ver) (.file (utf8 t))).bsl) →
      folder _ (bslName (kindOf c).name n) = z := fun z hz => by
    refine folder_place _ _ _ hnd ?_
    rw [hz]
    exact List.mem_append_left _ (List.mem_append_left _ (List.mem_append_right _ hm))
  rw [extractModule_utf8 _ _ _ ht] at hfold
  constructor
  · intro h
    refine hfold _ ?_
    have : directives c ver = false := by
      unfold directives
      rcases h with rfl | ⟨h1, h2⟩
      · rfl
      · rw [decide_eq_false h1, decide_eq_false h2, Bool.or_false, Bool.and_false]
    rw [this]
    rfl
  · intro h hv
    refine hfold _ ?_
    have : directives c ver = true := by
      unfold directives
      rw [decide_eq_true h, Bool.true_and]
      rcases hv with h | h
      · rw [decide_eq_true h, Bool.or_true]
      · rw [decide_eq_true h, Bool.true_or]
    rw [this]
    rfl

/-- the module of the application in the configuration of RootEx, extracted on Windows -/
example (rnd : Nat → Text) : ∃ os src, rootOut (pE rnd) .config "803".toList xF = some (pInfo, os, src) ∧
    folder src "Configuration.app.bsl".toList = some (utf8 "#Область include_lib_util\r\nПерем А;\r\n#КонецОбласти\r\n".toList) := by
  obtain ⟨src, h⟩ := pRootOut rnd
  refine ⟨_, src, h, ?_⟩
  have hF : xF (dot pInfo.uuid "6".toList) = some (.file (utf8 "#Область include_lib_util\nПерем А;\n#КонецОбласти\n".toList)) := by
    rw [show pInfo.uuid = ['p'] from rfl, xF_p (by decide)]
    unfold pF
    rw [if_neg (by decide), if_neg (by decide), if_neg (by decide), if_neg (by decide), if_pos rfl]
  have := (C62_module_source (pE rnd) .config "803".toList xF pInfo _ src h "app".toList "6".toList _ (by decide) hF (by decide)).1
    (.inr ⟨by decide, by decide⟩)
  have e1 : bslName (kindOf .config).name "app".toList = "Configuration.app.bsl".toList := by decide
  have e2 : osWrite (pE rnd).x.win (universal "#Область include_lib_util\nПерем А;\n#КонецОбласти\n".toList) = "#Область include_lib_util\r\nПерем А;\r\n#КонецОбласти\r\n".toList := by
    rw [show (pE rnd).x.win = true from rfl]
    decide
  rw [e1, e2] at this
  exact this

/-- **C62, the files of a configuration**, an extension and an external data processor: exactly these are put back -/
theorem C62_names_configuration (u fu m : Text) : m ∈ ownNames .config u fu ↔ m ∈ ["root".toList, "version".toList, fu] ∨
    ∃ s ∈ ["0", "2", "3", "4", "5", "6", "7", "8", "9", "10", "a", "b", "c", "d", "e", "f"], m = u ++ '.' :: s.toList := by
  have h : ownNames .config u fu = ["root".toList, "version".toList, fu] ++
      (["3", "2", "4", "9", "8", "10", "a", "b", "c", "d", "e", "f", "7", "6", "0", "5"].map (fun s => dot u s.toList)) := by rfl
  rw [h, List.mem_append]
  refine or_congr_right ?_
  rw [List.mem_map]
  have hp : ∀ s : String, s ∈ ["3", "2", "4", "9", "8", "10", "a", "b", "c", "d", "e", "f", "7", "6", "0", "5"] ↔
      s ∈ ["0", "2", "3", "4", "5", "6", "7", "8", "9", "10", "a", "b", "c", "d", "e", "f"] := by
    intro s
    have : (["3", "2", "4", "9", "8", "10", "a", "b", "c", "d", "e", "f", "7", "6", "0", "5"] : List String).Perm
      ["0", "2", "3", "4", "5", "6", "7", "8", "9", "10", "a", "b", "c", "d", "e", "f"] := by decide
    exact this.mem_iff
  constructor
  · rintro ⟨s, hs, rfl⟩
    exact ⟨s, (hp s).mp hs, rfl⟩
  · rintro ⟨s, hs, rfl⟩
    exact ⟨s, (hp s).mpr hs, rfl⟩

theorem C62_names_extension (u fu : Text) : ownNames .extension u fu =
    fu :: (["a", "5", "6", "7", "8", "9"].map (fun s => u ++ '.' :: s.toList)) := by rfl

theorem C62_names_processor (u fu : Text) : ownNames .processor u fu =
    ["root".toList, "version".toList, "copyinfo".toList, fu, u ++ ".1".toList, u ++ ".0".toList] := by rfl

/-- the modules of a configuration and of an extension by their names in the sources -/
theorem C62_modules_of : (config.codes.Perm ([("802", "0"), ("con", "5"), ("app", "6"), ("seance", "7")].map (fun p => (p.1.toList, p.2.toList)))) ∧
    extension.codes = [("con", "5"), ("app", "6"), ("ssn", "7")].map (fun p => (p.1.toList, p.2.toList)) := by decide

/-- the rows of `versions` come in pairs, one for the tree itself (the empty name) and one for each file -/
theorem versionsRow_length (rnd : Nat → Text) : ∀ (i : Nat) (l : List Text), (versionsRow rnd i l).length = 2 * l.length
  | _, [] => rfl
  | i, n :: r => by
    rw [versionsRow, List.length_cons, List.length_cons, versionsRow_length rnd (i + 1) r, List.length_cons]
    omega

theorem versionsRow_get (rnd : Nat → Text) : ∀ (l : List Text) (i k : Nat) (n : Text), l[k]? = some n →
    (versionsRow rnd i l)[2 * k]? = some (.str (V8.Module.strEncode n)) ∧ (versionsRow rnd i l)[2 * k + 1]? = some (.str (rnd (i + k)))
  | [], i, k, n, h => by cases h
  | a :: r, i, 0, n, h => by
    cases h
    exact ⟨rfl, rfl⟩
  | a :: r, i, k + 1, n, h => by
    have := versionsRow_get rnd r (i + 1) k n h
    rw [show 2 * (k + 1) = 2 * k + 1 + 1 by omega, versionsRow, List.getElem?_cons_succ, List.getElem?_cons_succ, List.getElem?_cons_succ,
      List.getElem?_cons_succ, show i + (k + 1) = i + 1 + k by omega]
    exact this

/-- **C62, `versions`.**  The new `versions` is one list: the number of its pairs is right (the pair of the empty name counts), and each file has its
name in quotes with an identifier of its own. -/
theorem C62_versions (rnd : Nat → Text) (names : List Text) : ∃ l, versionsTree rnd names = [l] ∧ l[0]? = some (.str ['1']) ∧
    (∃ n, l[1]? = some (.str (V8.Dec.showNat n)) ∧ l.length = 2 + 2 * n) ∧
    l[2]? = some (.str ['"', '"']) ∧ l[3]? = some (.str (rnd 0)) ∧
    ∀ k n, names[k]? = some n → l[2 * k + 4]? = some (.str (V8.Module.strEncode n)) ∧ l[2 * k + 5]? = some (.str (rnd (k + 1))) := by
  refine ⟨_, rfl, rfl, ⟨names.length + 1, rfl, ?_⟩, rfl, rfl, ?_⟩
  · simp only [List.length_cons, versionsRow_length]
    omega
  · intro k n h
    have := versionsRow_get rnd names 1 k n h
    rw [Nat.add_comm 1 k] at this
    exact this

example : versionsTree (fun i => V8.Dec.showNat i) ["root".toList] =
    [[.str ['1'], .str ['2'], .str "\"\"".toList, .str ['0'], .str "\"root\"".toList, .str ['1']]] := by decide +kernel

end V8.Root
