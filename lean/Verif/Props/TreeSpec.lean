import Verif.Props.Tree
import Verif.Props.LeafEx
/-
C63: the accounting register, whose header lies in one of two places.
-/
namespace V8.Tree
open V8.Brace V8.Enc V8.JsonText V8.Header V8.Nested V8.Object V8.Store
open V8.Leaf (TreeOf tree_unique getAt_list versionAt)
open V8.Module (strDecode)
open V8.Product (getAt setAt)

/-- **C63, accounting registers.**  If the number at [0][1][0] of the stored tree is above 21 the header is at [0][1][16][1], otherwise at [0][1][15][1]:
identifier, name (without the prefix of the options) and comment are the ones found there; without such a number nothing is extracted. -/
theorem C63_accounting_header (g : V8.FormObj.Lim) (con : Option Text) (x : Ext) (y : Bld) (ver u : Text) (F : Text → Option Node) (info : Info) (os : List Obj) (src : List (Place Node)) (root : Val)
    (hr : TreeOf F u root) (hx : (handlerOf g x y ver accounting).out con F (.str u) = some (info, os, src)) :
    ∃ s n i, getAt root [0, 1, 0] = some (.str s) ∧ V8.Dec.parseInt s = some n ∧ (i = if n > 21 then 16 else 15) ∧
      getAt root [0, 1, i, 1, 1, 2] = some (.str info.uuid) ∧
      (∃ tok, getAt root [0, 1, i, 1, 2] = some (.str tok) ∧
        (x.p ++ info.name = strDecode tok ∨ (¬ x.p <+: strDecode tok ∧ info.name = strDecode tok))) ∧
      ∃ tok, getAt root [0, 1, i, 1, 4] = some (.str tok) ∧ info.comment = strDecode tok := by
  obtain ⟨b, d, hF, hb, rfl⟩ := hr
  cases hk : accounting.kindAt (rootVal d) with
  | none =>
    have : (handlerOf g x y ver accounting).out con F (.str u) = none := by
      unfold accounting at hk ⊢
      show (match F u with
        | some (.file b) => (braceRead b).bind (fun d => ((Class.pick _ _ _).kindAt (rootVal d)).bind (fun k' =>
          (extractAll x k' (some ver) F u).map (fun (r : Info × List Obj × List (Place Bytes)) => (r.1, r.2.1, nodes r.2.2))))
        | _ => none) = _
      rw [hF]
      simp only [hb, Option.bind_some, hk]
      rfl
    rw [this] at hx
    cases hx
  | some k =>
    rw [out_at hF hb hk] at hx
    simp only [Option.map_eq_some_iff] at hx
    obtain ⟨q, hq, he⟩ := hx
    obtain ⟨qi, qo, qs⟩ := q
    simp only [Prod.mk.injEq] at he
    obtain ⟨rfl, rfl, rfl⟩ := he
    unfold extractAll at hq
    rw [hF] at hq
    simp only [Option.bind_eq_some_iff, Option.map_eq_some_iff] at hq
    obtain ⟨r, hr, p, hpo, q, hq, he⟩ := hq
    obtain ⟨a1, a2, a3⟩ := q
    simp only [Prod.mk.injEq] at he
    obtain ⟨rfl, rfl, rfl⟩ := he
    obtain ⟨d', hd, h', r1, r2, hb', hg, hdec, hs, ht, _⟩ := extract_some hq
    rw [hb] at hb'
    cases hb'
    unfold accounting Class.kindAt at hk
    simp only [Option.map_eq_some_iff, Option.bind_eq_some_iff] at hk
    obtain ⟨n, ⟨s, hv, hn⟩, hk⟩ := hk
    unfold versionAt at hv
    split at hv
    case h_2 => cases hv
    case h_1 s' hs' =>
      cases hv
      have hpath : k.cls.path = [0, 1, if n > 21 then 16 else 15, 1] := by
        subst hk
        by_cases h : n > 21
        · rw [if_pos h, if_pos h]; rfl
        · rw [if_neg h, if_neg h]; rfl
      refine ⟨s, n, if n > 21 then 16 else 15, hs', hn, rfl, ?_, ?_, ?_⟩
      all_goals (revert hpath; generalize (if n > 21 then 16 else 15) = i; intro hpath; rw [hpath] at hg)
      · obtain ⟨l, tok, h1, h2, _⟩ := decode_ok hdec
        rw [show [0, 1, i, 1, 1, 2] = [0, 1, i, 1] ++ [1, 2] from rfl, V8.Product.getAt_append, hg, Option.bind_some, getAt_list h1, getAt_list h2]
        rfl
      · obtain ⟨l, tok, _, _, _, h3, h4, _⟩ := decode_ok hdec
        refine ⟨tok, ?_, ?_⟩
        · rw [show [0, 1, i, 1, 2] = [0, 1, i, 1] ++ [2] from rfl, V8.Product.getAt_append, hg, Option.bind_some, getAt_list h3]
          rfl
        · rw [h4]
          unfold stripped
          by_cases hp : x.p ≠ [] ∧ x.p.isPrefixOf (strDecode tok) = true
          · rw [if_pos hp]
            obtain ⟨s, hs⟩ := List.isPrefixOf_iff_prefix.mp hp.2
            left
            rw [← hs, List.drop_left]
          · rw [if_neg hp]
            by_cases h0 : x.p = []
            · left; rw [h0]; rfl
            · right
              exact ⟨fun h => hp ⟨h0, List.isPrefixOf_iff_prefix.mpr h⟩, rfl⟩
      · obtain ⟨tok, h1, h2⟩ := V8.Leaf.decode_comment_is hdec
        refine ⟨tok, ?_, h2⟩
        rw [show [0, 1, i, 1, 4] = [0, 1, i, 1] ++ [4] from rfl, V8.Product.getAt_append, hg, Option.bind_some, getAt_list h1]
        rfl

/-- **C63, the modules and the help page of an accounting register** are the files .6, .7 and .5 -/
theorem C63_accounting_files (u : Text) (root : Val) (k : Kind) (h : accounting.kindAt root = some k) (n : Text) :
    n ∈ names k u ↔ n = u ∨ n = u ++ ".5".toList ∨ n = u ++ ".6".toList ∨ n = u ++ ".7".toList := by
  have e : names k u = names (kind "AccountingRegister" [16, 1] true [("obj", "6"), ("mgr", "7")] (some "5") [] none) u := by
    unfold accounting Class.kindAt at h
    simp only [Option.map_eq_some_iff] at h
    obtain ⟨z, _, rfl⟩ := h
    by_cases hz : z > 21
    · rw [if_pos hz]
    · rw [if_neg hz]; rfl
  have e2 : names (kind "AccountingRegister" [16, 1] true [("obj", "6"), ("mgr", "7")] (some "5") [] none) u =
      [u ++ ".5".toList, u, u ++ ".6".toList, u ++ ".7".toList] := rfl
  rw [e, e2]
  simp only [List.mem_cons, List.not_mem_nil, or_false]
  constructor
  · rintro (h | h | h | h)
    · exact .inr (.inl h)
    · exact .inl h
    · exact .inr (.inr (.inl h))
    · exact .inr (.inr (.inr h))
  · rintro (h | h | h | h)
    · exact .inr (.inl h)
    · exact .inl h
    · exact .inr (.inr (.inl h))
    · exact .inr (.inr (.inr h))

/-- **C63, the classes** -/
theorem C63_classes : classOf "CommonPicture".toList = some (.leaf .picture) ∧ classOf "Template".toList = some (.leaf .template) ∧
    classOf "CommonTemplate".toList = some (.leaf .commonTemplate) ∧ classOf "WSReference".toList = some (.leaf .reference) ∧
    classOf "AccountingRegister".toList = some accounting := by decide +kernel

/-! ### an example: an accounting register in either layout -/

open V8.Leaf (eX eY eF eF_u eHead eSep eInfo)

def eAcc (num : Text) (pad : List Val) (h : List Val) : List (List Val) :=
  [[.str ['1'], .list (.str num :: pad ++ [.list [.str ['1'], .list h]]), .str ['0'], .str ['0']]]
def ePad (n : Nat) : List Val := List.replicate n (.str ['5'])
def eAcc22 : List (List Val) := eAcc "22".toList (ePad 15) (eHead "\"ОО_Хозрасчетный\"".toList "\"\"".toList)
def eAcc21 : List (List Val) := eAcc "21".toList (ePad 14) (eHead "\"ОО_Хозрасчетный\"".toList "\"\"".toList)

theorem eAcc_out (g : V8.FormObj.Lim) (con : Option Text) (d : List (List Val)) (k : Kind) (r : Val) (hk : accounting.kindAt (rootVal d) = some k) (hd : k.cls.ids = [])
    (hc : k.codes = [("obj".toList, "6".toList), ("mgr".toList, "7".toList)]) (h1 : k.help = some "5".toList) (h2 : k.blobs = []) (h3 : k.info = none)
    (hb : braceRead (braceFile false d) = some d) (hg : getAt (rootVal d) k.cls.path = some (.list (eHead "\"ОО_Хозрасчетный\"".toList "\"\"".toList)))
    (hs : setAt (rootVal d) k.cls.path (.list (eSep "\"Хозрасчетный\"".toList "\"\"".toList)) = some r) (ht : takeIncludes eX k.cls r = some (r, [])) :
    ∃ src, (handlerOf g eX eY "803".toList accounting).out con (eF d none) (.str ['u']) = some (eInfo "Хозрасчетный".toList [], [], src) := by
  have he := fun extra => extract_of eX k.cls (some "803".toList) extra _ d _ _ (eInfo "Хозрасчетный".toList []) r r [] hb hg
    (by decide +kernel : decodeHeader eX.valid eX.p true (eHead "\"ОО_Хозрасчетный\"".toList "\"\"".toList) =
      .ok (eInfo "Хозрасчетный".toList [], eSep "\"Хозрасчетный\"".toList "\"\"".toList)) hs ht (.inl hd)
  have hno : ∀ s ∈ ["5".toList, "6".toList, "7".toList], eF d none (dot ['u'] s) = none := by
    intro s hs
    unfold eF
    rw [if_neg, ite_self]
    intro h
    have := congrArg List.length h
    unfold dot at this
    simp at this
  have hp : ∃ p, partsOut eX.win k (eF d none) ['u'] = some p := by
    unfold partsOut
    rw [hc, h1, h2, h3, helpOut, fileAt, hno _ (by decide)]
    simp only [Option.bind_some, V8.Embed.htmlOut, Option.map_some, blobsOut, codesOut, codeOut, hno "6".toList (by decide), hno "7".toList (by decide), storedOf, infoOut]
    exact ⟨_, rfl⟩
  obtain ⟨p, hp⟩ := hp
  rw [out_at (eF_u d none) hb hk]
  unfold extractAll
  rw [eF_u]
  simp only [he, Option.bind_some, Option.map_some]
  have hp' : partsOut eX.win k (eF d none) (eInfo "Хозрасчетный".toList []).uuid = some p := hp
  rw [hp']
  exact ⟨_, rfl⟩

theorem eAcc_wf : WFFile eAcc22 ∧ WFFile eAcc21 := ⟨fileB_ok _ (by decide +kernel), fileB_ok _ (by decide +kernel)⟩

example (g : V8.FormObj.Lim) (con : Option Text) : (∃ src, (handlerOf g eX eY "803".toList accounting).out con (eF eAcc22 none) (.str ['u']) = some (eInfo "Хозрасчетный".toList [], [], src)) ∧
    TreeOf (eF eAcc22 none) ['u'] (rootVal eAcc22) ∧
    (∃ src, (handlerOf g eX eY "803".toList accounting).out con (eF eAcc21 none) (.str ['u']) = some (eInfo "Хозрасчетный".toList [], [], src)) ∧
    TreeOf (eF eAcc21 none) ['u'] (rootVal eAcc21) := by
  have b22 := C59_brace_file_round_trip false eAcc22 (by decide) eAcc_wf.1
  have b21 := C59_brace_file_round_trip false eAcc21 (by decide) eAcc_wf.2
  refine ⟨?_, ⟨_, _, eF_u _ _, b22, rfl⟩, ?_, ⟨_, _, eF_u _ _, b21, rfl⟩⟩
  · exact eAcc_out g con eAcc22 (kind "AccountingRegister" [16, 1] true [("obj", "6"), ("mgr", "7")] (some "5") [] none)
      (rootVal (eAcc "22".toList (ePad 15) (eSep "\"Хозрасчетный\"".toList "\"\"".toList))) (by decide +kernel) rfl rfl rfl rfl rfl b22
      (by decide +kernel) (by decide +kernel) (by decide +kernel)
  · exact eAcc_out g con eAcc21 { (kind "AccountingRegister" [16, 1] true [("obj", "6"), ("mgr", "7")] (some "5") [] none) with
        cls := { (kind "AccountingRegister" [16, 1] true [("obj", "6"), ("mgr", "7")] (some "5") [] none).cls with rest := [15, 1] } }
      (rootVal (eAcc "21".toList (ePad 14) (eSep "\"Хозрасчетный\"".toList "\"\"".toList))) (by decide +kernel) rfl rfl rfl rfl rfl b21
      (by decide +kernel) (by decide +kernel) (by decide +kernel)

/-! ## what forms know of their parents, and folders that nothing looks into -/

/-- **C61, the parent of a form.**  The identifier that the objects nested in a catalog, document or data processor know of it stands at [0][1][1] of its
stored tree; the objects nested in objects of any other class know none. -/
theorem C61_container_of (k : Kind) (F : Text → Option Node) (u s : Text) : conOf (.file k) F (.str u) = some s ↔
    (k.name = "Catalog".toList ∨ k.name = "Document".toList ∨ k.name = "DataProcessor".toList) ∧
      ∃ root, TreeOf F u root ∧ getAt root [0, 1, 1] = some (.str s) := by
  have hm : k.name ∈ containers ↔ k.name = "Catalog".toList ∨ k.name = "Document".toList ∨ k.name = "DataProcessor".toList := by
    unfold containers
    rw [List.map_cons, List.map_cons, List.map_cons, List.map_nil, List.mem_cons, List.mem_cons, List.mem_cons]
    simp only [List.not_mem_nil, or_false]
  rw [← hm]
  unfold conOf
  simp only
  unfold conOut
  simp only
  constructor
  · intro h
    by_cases hn : k.name ∈ containers
    case neg => rw [if_neg hn] at h; cases h
    rw [if_pos hn] at h
    cases hF : F u with
    | none => rw [hF] at h; cases h
    | some nd =>
      cases nd with
      | dir f => rw [hF] at h; cases h
      | file b =>
        rw [hF] at h
        simp only [Option.bind_eq_some_iff] at h
        obtain ⟨d, hd, hc⟩ := h
        refine ⟨hn, _, ⟨b, d, hF, hd, rfl⟩, ?_⟩
        unfold conAt at hc
        rw [Option.bind_eq_some_iff] at hc
        obtain ⟨v, hv, hs⟩ := hc
        cases v with
        | none => cases hs
        | list l => cases hs
        | str t => cases hs; exact hv
  · rintro ⟨hn, _, ⟨b, d, hF, hd, rfl⟩, hc⟩
    rw [if_pos hn, hF]
    simp only [hd, Option.bind_some, conAt, hc]

/-- the class of a type of the tool whose nested objects know an identifier -/
theorem C61_no_container (c : Class) (F : Text → Option Node) (v : Val) (h : ∀ k, c ≠ .file k) : conOf c F v = none := by
  cases c with
  | file k => exact absurd rfl (h k)
  | pick _ _ _ => rfl
  | inner _ => rfl
  | leaf _ => rfl
  | form _ => rfl

/-- **C61, folders below pictures, templates, references and forms.**  Whatever folders of nested objects stand in the source folder of such an object,
the build does not look into them: the result is the same as without them. -/
theorem C61_folders_ignored (C : Text → Option Class) (g : V8.FormObj.Lim) (x : Ext) (y : Bld) (ver : Text) (ord : Text → List Entry → List Entry) (con : Option Text)
    (parent ty nm : Text) (files : List (Place Node)) (subs : Subs) (h : (∃ t, C ty = some (.leaf t)) ∨ (∃ f, C ty = some (.form f)) ∨
      ∃ k, C ty = some (.file k) ∧ k.cls.includes = false) :
    buildDir (handlers C g x y ver) ord con parent ty nm (.mk files subs) = buildDir (handlers C g x y ver) ord con parent ty nm (.mk files .nil) := by
  have key : ∀ hd, handlers C g x y ver ty = some hd → hd.kids = false →
      buildDir (handlers C g x y ver) ord con parent ty nm (.mk files subs) = buildDir (handlers C g x y ver) ord con parent ty nm (.mk files .nil) := by
    intro hd hk hkids
    rw [buildDir, buildDir]
    simp only [hk]
    rw [if_pos (c := hd.kids = false ∨ subs.isNil = true) (.inl hkids), if_pos (c := hd.kids = false ∨ Subs.nil.isNil = true) (.inl hkids)]
  rcases h with ⟨t, h⟩ | ⟨f, h⟩ | ⟨k, h, hi⟩
  · exact key _ (by unfold handlers; rw [h]; rfl) rfl
  · exact key _ (by unfold handlers; rw [h]; rfl) rfl
  · exact key _ (by unfold handlers; rw [h]; rfl) hi

example : (∃ t, classOf "Template".toList = some (.leaf t)) ∧ (∃ f, classOf "CatalogForm".toList = some (.form f)) ∧
    ∃ k, classOf "Constant".toList = some (.file k) ∧ k.cls.includes = false :=
  ⟨⟨.template, by decide +kernel⟩, ⟨⟨"CatalogForm".toList, .form1⟩, by decide +kernel⟩, by
    have h : ∃ k ∈ kinds, classOf "Constant".toList = some (.file k) ∧ k.cls.includes = false := by decide +kernel
    obtain ⟨k, _, h⟩ := h
    exact ⟨k, h⟩⟩

end V8.Tree
