import Verif.Props.FormObj
import Verif.Props.LeafSpec
import Verif.Props.RootSpec
/-
C64: forms, stated by what is in the container and in the sources.
-/
namespace V8.FormObj
open V8.Brace V8.Enc V8.JsonText V8.Header V8.Object V8.FormJson
open V8.Store hiding Kind
open V8.Leaf (TreeOf tree_unique getAt_list)
open V8.Module (EncName Code readRaw writeText writeDecode readCode writeCode getset formCodeOut formCodeIn comment tokIn Rebuilt strDecode)
open V8.Product (getAt setAt getAt_setAt setAt_getAt setAt_setAt getAt_frame)

/-- **C64, the object.**  A form that is extracted and built again has the names `uuid`, `uuid.0` and `uuid.1` in the container as before, and nothing
else. -/
theorem C64_object (x : Ext) (y : Bld) (g : Lim) (con : Option Text) (f : FCls) (F : Text → Option Node) (u : Text) (d : List (List Val)) (c : Cls)
    (ver ty : Text) (info : Info) (src : List (Place Node)) (hf : FormFit x y g con F f u d c ver ty) (hp : y.p = x.p) (hauto : y.auto = x.auto)
    (hgood : g.Good) (hx : formOut x g con f F u = some (info, src)) :
    ∃ files, formBack y g con f (folder src) = some (some ⟨u, info.name, .str u⟩, files) ∧
      ∀ n nd, (n, nd) ∈ files ↔ (n = u ∨ n = u ++ ".0".toList ∨ n = u ++ ".1".toList) ∧ F n = some nd := by
  obtain ⟨_, _, _, h⟩ := form_back x y g con f F u d c ver ty info src hf hp hauto hgood hx
  refine ⟨_, h, ?_⟩
  intro n nd
  unfold formNames written
  simp only [List.map_cons, List.map_nil, List.mem_filterMap, List.mem_cons, List.not_mem_nil, or_false, Option.map_eq_some_iff, Prod.mk.injEq]
  have e0 : dot u ['0'] = u ++ ".0".toList := rfl
  have e1 : dot u ['1'] = u ++ ".1".toList := rfl
  constructor
  · rintro ⟨q, hq, v, hv, rfl, rfl⟩
    rcases hq with rfl | rfl | rfl
    · exact ⟨.inl rfl, hv⟩
    · exact ⟨.inr (.inl e0), hv⟩
    · exact ⟨.inr (.inr e1), hv⟩
  · rintro ⟨h1 | h1 | h1, h2⟩
    · exact ⟨(u, F u), .inl rfl, nd, h1 ▸ h2, h1.symm, rfl⟩
    · exact ⟨(dot u ['0'], F (dot u ['0'])), .inr (.inl rfl), nd, by rw [e0, ← h1]; exact h2, by rw [h1]; exact e0, rfl⟩
    · exact ⟨(dot u ['1'], F (dot u ['1'])), .inr (.inr rfl), nd, by rw [e1, ← h1]; exact h2, by rw [h1]; exact e1, rfl⟩

/-! ## where things are -/

/-- the place of the data of a form in its tree, by the class of the form and, for Form and ReportForm, the number at [0][1][0] -/
def DataAt (root : Val) : Site → List Nat → Prop
  | .form1, p => p = [0, 1, 1]
  | .form0, p => p = [0, 1]
  | .form, p => (getAt root [0, 1, 0] = some (.str ['0']) ∧ p = [0, 1, 1]) ∨ (getAt root [0, 1, 0] = some (.str ['1']) ∧ p = [0, 1, 1, 1])

theorem data_at {root : Val} {s : Site} {q : List Nat} (h : within root s = some q) : DataAt root s (0 :: 1 :: q) := by
  unfold within at h
  cases s with
  | form1 => cases h; rfl
  | form0 => cases h; rfl
  | form =>
    simp only [Option.bind_eq_some_iff] at h
    obtain ⟨v, hv, h⟩ := h
    have hv2 : getAt root [0, 1, 0] = some (.str v) := by
      unfold Leaf.versionAt at hv
      split at hv
      · rename_i w hw; cases hv; exact hw
      · cases hv
    by_cases h0 : v = ['0']
    · rw [if_pos h0] at h; cases h; subst h0; exact .inl ⟨hv2, rfl⟩
    · rw [if_neg h0] at h
      by_cases h1 : v = ['1']
      · rw [if_pos h1] at h; cases h; subst h1; exact .inr ⟨hv2, rfl⟩
      · rw [if_neg h1] at h; cases h

/-- **C64, identifier, name, comment and version.**  In the data of a form the version is the value 0 and the header the value 1. -/
theorem C64_header (x : Ext) (g : Lim) (con : Option Text) (f : FCls) (F : Text → Option Node) (u : Text) (info : Info) (src : List (Place Node)) (root : Val)
    (hr : TreeOf F u root) (hx : formOut x g con f F u = some (info, src)) :
    ∃ p, DataAt root f.site p ∧ (∃ v, getAt root (p ++ [0]) = some (.str v) ∧ v ∈ ["5", "7", "9", "12", "13", "14"].map String.toList) ∧
      getAt root (p ++ [1, 1, 2]) = some (.str info.uuid) ∧
      (∃ tok, getAt root (p ++ [1, 2]) = some (.str tok) ∧
        (x.p ++ info.name = strDecode tok ∨ (¬ x.p <+: strDecode tok ∧ info.name = strDecode tok))) ∧
      ∃ tok, getAt root (p ++ [1, 4]) = some (.str tok) ∧ info.comment = strDecode tok := by
  obtain ⟨b, d, cv, hd, h', r, ty, z, one, v, e, hF, hb, hc, hg, hdec, hs, hty, hz, ho, hv, he, rfl⟩ := formOut_some hx
  have hroot := tree_unique hr hF hb
  subst hroot
  obtain ⟨q, hq, hcq, hver, hmem⟩ := clsAt_some (c := cv.1) (v := cv.2) hc
  have hpath : cv.1.path = (0 :: 1 :: q) ++ [1] := by rw [hcq]; rfl
  rw [hpath] at hg
  have hsplit : ∀ t, getAt (rootVal d) ((0 :: 1 :: q) ++ (1 :: t)) = getAt (.list hd) t := by
    intro t
    rw [show (0 :: 1 :: q) ++ (1 :: t) = ((0 :: 1 :: q) ++ [1]) ++ t by simp, V8.Product.getAt_append, hg, Option.bind_some]
  refine ⟨0 :: 1 :: q, data_at hq, ⟨cv.2, hver, hmem⟩, ?_, ?_, ?_⟩
  · obtain ⟨l, tok, h1, h2, _⟩ := decode_ok hdec
    rw [hsplit, getAt_list h1, getAt_list h2]
    rfl
  · obtain ⟨l, tok, _, _, _, h3, h4, _⟩ := decode_ok hdec
    refine ⟨tok, by rw [hsplit, getAt_list h3]; rfl, ?_⟩
    rw [h4]
    unfold stripped
    by_cases hp : x.p ≠ [] ∧ x.p.isPrefixOf (strDecode tok) = true
    · rw [if_pos hp]
      obtain ⟨s, hs⟩ := List.isPrefixOf_iff_prefix.mp hp.2
      left
      rw [← hs, List.drop_left]
    · rw [if_neg hp]
      by_cases h0 : x.p = []
      · left; rw [h0]; rfl
      · right
        exact ⟨fun h => hp ⟨h0, List.isPrefixOf_iff_prefix.mpr h⟩, rfl⟩
  · obtain ⟨tok, h1, h2⟩ := V8.Leaf.decode_comment_is hdec
    exact ⟨tok, by rw [hsplit, getAt_list h1]; rfl, h2⟩

/-- **C64, the type.**  The type of a form is the value 3 of its data, and 0 (an ordinary form) if there are fewer; it is in the description under
'Тип формы'. -/
theorem C64_type (x : Ext) (g : Lim) (con : Option Text) (f : FCls) (F : Text → Option Node) (u : Text) (info : Info) (src : List (Place Node)) (root : Val)
    (hr : TreeOf F u root) (hx : formOut x g con f F u = some (info, src)) :
    ∃ p l ty j, DataAt root f.site p ∧ getAt root p = some (.list l) ∧ (l[3]? = some (.str ty) ∨ (l.length ≤ 3 ∧ ty = ['0'])) ∧
      fileIn (folder src) (f.name ++ ".json".toList) = some (fileOf x.win j) ∧ textAt j "Тип формы".toList = some ty := by
  obtain ⟨b, d, cv, hd, h', r, ty, z, one, v, e, hF, hb, hc, hg, hdec, hs, hty, hz, ho, hv, he, rfl⟩ := formOut_some hx
  have hroot := tree_unique hr hF hb
  subst hroot
  have hsrc := form_sources (f := f) (r := r) (ty := ty) (ver := cv.2) (v := v.1) (z := z) (e := e) hdec
  unfold typeAt at hty
  rw [Option.bind_eq_some_iff] at hty
  obtain ⟨q, hq, hty⟩ := hty
  cases hl : getAt (rootVal d) (0 :: 1 :: q) with
  | none => rw [hl] at hty; cases hty
  | some w =>
    rw [hl] at hty
    cases w with
    | none => cases hty
    | str _ => cases hty
    | list l =>
      refine ⟨0 :: 1 :: q, l, ty, _, data_at hq, hl, ?_, hsrc.obj, hsrc.type⟩
      simp only at hty
      cases h3 : (l[3]? : Option Val) with
      | none =>
        rw [h3] at hty
        exact .inr ⟨List.getElem?_eq_none_iff.mp h3, (Option.some.inj hty).symm⟩
      | some w =>
        rw [h3] at hty
        cases w with
        | none => cases hty
        | list _ => cases hty
        | str t => cases hty; exact .inl rfl

/-! ## forms of each kind come back -/

/-- only the versions 26 and 27 are taken apart -/
theorem decoder_version {raw : List Val} {rows : List (List Val)} {v : Text} {ni : Nat} {ver : Int}
    (h : decoderOf ['0'] [raw :: rows] = some (v, some (.ordinary ni ver))) :
    raw[0]? = some (.str "26".toList) ∨ raw[0]? = some (.str "27".toList) := by
  have h2 := h
  unfold decoderOf at h2
  rw [show supported ['0'] = none by decide] at h2
  simp only at h2
  cases ha : (raw[0]? : Option Val) with
  | none => rw [ha] at h2; cases h2
  | some w =>
    cases w with
    | list _ => rw [ha] at h2; cases h2
    | none =>
      have := decoder_ordinary (raw' := [.none]) (rows' := []) (more' := []) h (by rw [ha]; rfl)
      have e : decoderOf ['0'] [[[Val.none]]] = none := by decide +kernel
      rw [e] at this
      cases this
    | str k =>
      have := decoder_ordinary (raw' := [.str k]) (rows' := []) (more' := []) h (by rw [ha]; rfl)
      unfold decoderOf at this
      rw [show supported ['0'] = none by decide] at this
      simp only [List.getElem?_cons_zero, Option.bind_some, shown] at this
      cases hs : supported (['0'] ++ '-' :: k) with
      | none =>
        rw [hs] at this
        cases this
      | some q =>
        unfold supported at hs
        rw [if_neg (by simp)] at hs
        by_cases h6 : ['0'] ++ '-' :: k = "0-26".toList
        · left
          have : k = "26".toList := by simpa using h6
          rw [this]
        · rw [if_neg h6] at hs
          by_cases h7 : ['0'] ++ '-' :: k = "0-27".toList
          · right
            have : k = "27".toList := by simpa using h7
            rw [this]
          · rw [if_neg h7] at hs; cases hs

/-- **C64, managed forms.**  A managed form in the layout of the serializer comes back with its code, its attributes, commands, parameters and
elements, if its names are unambiguous (the conditions of C30). -/
theorem C64_managed_partial {x : Ext} {y : Bld} {g : Lim} {con : Option Text} {F : Text → Option Node} {f : FCls} {u : Text} {d : List (List Val)} {c : Cls} {ver : Text}
    {info : Info} {src : List (Place Node)} (raw raw' : List Val) (rows : List (List Val)) (code : Text) (s : V8.Form.Src)
    (file : F u = some (.file (braceFile y.win d))) (ne : d ≠ []) (wf : WFFile d) (place : clsAt (rootVal d) f.site = some (c, ver))
    (type : typeAt (rootVal d) f.site = some ['1']) (uuid : ∃ l, (headerOf c d)[1]? = some (.list l) ∧ l[2]? = some (.str u))
    (pre : PrefixOk x.p y.parent (headerOf c d))
    (zero : F (u ++ ".0".toList) = some (.file (braceFile y.win (raw :: rows)))) (zwf : WFFile (raw :: rows)) (one : OneOk y.win (F (u ++ ".1".toList)))
    (rv : ∃ t ∈ ["4", "3", "2"].map String.toList, raw[0]? = some (.str t)) (lit : raw[2]? = some (.str (quoted code)))
    (cr : '\r' ∉ code) (mark : code.head? ≠ some bom)
    (h : V8.Form.decodeForm g.depth con raw = some (raw', s))
    (paths : (s.data.map (·.1)).Nodup)
    (names : ∀ pl ∈ V8.Form.places [] s.tree, pl.2.2.child ≠ none → V8.Form.NameOk pl.2.2 pl.2.1)
    (areas : ∀ pl ∈ V8.Form.places [] s.tree, V8.Form.InArea pl.1 pl.2.1 →
      ((V8.Form.propsByName s.props).map (·.1)).Nodup ∧ (∀ C, V8.Form.commandsByName s.commands = some C → (C.map (·.1)).Nodup) ∧
      ∀ d, (V8.Form.key pl.1 pl.2.1, d) ∈ s.data → V8.Form.Usual s pl.2.2 d)
    (slot3 : V8.Form.SlotOk raw 3) (slot4 : V8.Form.SlotOk raw 4) (slot5 : V8.Form.SlotOk raw 5)
    (words : ∀ v, raw[3]? = some (.list v) → ∀ x ∈ v, V8.Form.NoWord x) (parentGiven : con ≠ some [])
    (props : s.props = none → raw'[3]? = raw[3]?)
    (hp : y.p = x.p) (hauto : y.auto = x.auto) (hgood : g.Good) (hx : formOut x g con f F u = some (info, src)) :
    ∃ files, formBack y g con f (folder src) = some (some ⟨u, info.name, .str u⟩, files) ∧
      ∀ n nd, (n, nd) ∈ files ↔ (n = u ∨ n = u ++ ".0".toList ∨ n = u ++ ".1".toList) ∧ F n = some nd := by
  refine C64_object x y g con f F u d c ver ['1'] info src ⟨file, ne, wf, place, type, uuid, pre, ?_⟩ hp hauto hgood hx
  have e0 : dot u ['0'] = u ++ ".0".toList := rfl
  have e1 : dot u ['1'] = u ++ ".1".toList := rfl
  rw [e0, e1, zero]
  refine .managed raw rows code _ zwf one ?_ lit cr mark (.inl ⟨raw', s, h, paths, ?_⟩)
  · obtain ⟨t, ht, h0⟩ := rv
    rw [h0]
    simp only [List.map_cons, List.map_nil, List.mem_cons, List.not_mem_nil, or_false] at ht
    rcases ht with rfl | rfl | rfl <;> decide
  · exact V8.Form.C30_managed_form_round_trip_partial g.depth con raw raw' s h paths names areas slot3 slot4 slot5 words parentGiven props

/-- **C64, managed forms that cannot be taken apart** come back all the same (the conditions of C45). -/
theorem C64_managed_failed_partial {x : Ext} {y : Bld} {g : Lim} {con : Option Text} {F : Text → Option Node} {f : FCls} {u : Text} {d : List (List Val)} {c : Cls}
    {ver : Text} {info : Info} {src : List (Place Node)} (raw : List Val) (rows : List (List Val)) (code : Text)
    (file : F u = some (.file (braceFile y.win d))) (ne : d ≠ []) (wf : WFFile d) (place : clsAt (rootVal d) f.site = some (c, ver))
    (type : typeAt (rootVal d) f.site = some ['1']) (uuid : ∃ l, (headerOf c d)[1]? = some (.list l) ∧ l[2]? = some (.str u))
    (pre : PrefixOk x.p y.parent (headerOf c d))
    (zero : F (u ++ ".0".toList) = some (.file (braceFile y.win (raw :: rows)))) (zwf : WFFile (raw :: rows)) (one : OneOk y.win (F (u ++ ".1".toList)))
    (rv : ∃ t ∈ ["4", "3", "2"].map String.toList, raw[0]? = some (.str t)) (lit : raw[2]? = some (.str (quoted code)))
    (cr : '\r' ∉ code) (mark : code.head? ≠ some bom)
    (h : V8.Form.decodeForm g.depth con raw = none)
    (slot3 : V8.Form.SlotOk raw 3) (slot4 : V8.Form.SlotOk raw 4) (slot5 : V8.Form.SlotOk raw 5)
    (elems : ∃ root i v, V8.Form.rootOf raw = some root ∧ V8.Form.elemIndex root = some i ∧ root[i]? = some v ∧ v ≠ .str V8.Form.marker)
    (hp : y.p = x.p) (hauto : y.auto = x.auto) (hgood : g.Good) (hx : formOut x g con f F u = some (info, src)) :
    ∃ files, formBack y g con f (folder src) = some (some ⟨u, info.name, .str u⟩, files) ∧
      ∀ n nd, (n, nd) ∈ files ↔ (n = u ∨ n = u ++ ".0".toList ∨ n = u ++ ".1".toList) ∧ F n = some nd := by
  refine C64_object x y g con f F u d c ver ['1'] info src ⟨file, ne, wf, place, type, uuid, pre, ?_⟩ hp hauto hgood hx
  have e0 : dot u ['0'] = u ++ ".0".toList := rfl
  have e1 : dot u ['1'] = u ++ ".1".toList := rfl
  rw [e0, e1, zero]
  refine .managed raw rows code _ zwf one ?_ lit cr mark (.inr ⟨h, ?_⟩)
  · obtain ⟨t, ht, h0⟩ := rv
    rw [h0]
    simp only [List.map_cons, List.map_nil, List.mem_cons, List.not_mem_nil, or_false] at ht
    rcases ht with rfl | rfl | rfl <;> decide
  · intro s
    have := V8.Form.C45_failed_form_builds_partial g.depth g.depth con con raw s h slot3 slot4 slot5 elems
    rw [V8.Form.takeApart, h] at this
    exact this

/-- **C64, ordinary forms.**  An ordinary form in the layout of the serializer, with a text as its module, comes back with its module and its elements, if
its names are unambiguous (the conditions of C53) and auto_include is not asked for. -/
theorem C64_ordinary_partial {x : Ext} {y : Bld} {g : Lim} {con : Option Text} {F : Text → Option Node} {f : FCls} {u : Text} {d : List (List Val)} {c : Cls} {ver : Text}
    {info : Info} {src : List (Place Node)} (raw raw' : List Val) (rows : List (List Val)) (m : Bytes) (s : V8.OForm.Src) (ni : Nat)
    (file : F u = some (.file (braceFile y.win d))) (ne : d ≠ []) (wf : WFFile d) (place : clsAt (rootVal d) f.site = some (c, ver))
    (type : typeAt (rootVal d) f.site = some ['0']) (uuid : ∃ l, (headerOf c d)[1]? = some (.list l) ∧ l[2]? = some (.str u))
    (pre : PrefixOk x.p y.parent (headerOf c d))
    (zero : F (u ++ ".0".toList) = some (.dir (formDir (braceFile y.win (raw :: rows)) m))) (zwf : WFFile (raw :: rows)) (one : OneOk y.win (F (u ++ ".1".toList)))
    (module : Rebuilt y.win true m m) (text : utf8Text m ≠ none ∨ cpText m ≠ none)
    (rv : (raw[0]? = some (.str "26".toList) ∧ ni = 3) ∨ (raw[0]? = some (.str "27".toList) ∧ ni = 4)) (noAuto : x.auto = false)
    (h : V8.OForm.formOut ni g.depth raw = some (raw', s))
    (main : ∀ panel, V8.OForm.get2 raw 1 2 = some (.list panel) →
      (∀ pr, V8.OForm.get2 panel 1 1 = some (.list pr) → V8.OForm.TidyPages pr) ∧ (∀ er, panel[2]? = some (.list er) → V8.OForm.TidyElems er))
    (inner : ∀ panel, V8.OForm.get2 raw 1 2 = some (.list panel) → ∀ p ∈ V8.OForm.innerPanels g.depth panel, V8.OForm.TidyPanel p)
    (names : ∀ t ∈ V8.OForm.allNames s.tree, t ≠ [])
    (paths : (s.data.map (·.1)).Nodup)
    (ids : ∀ l, s.attrs = some l → ∀ a ∈ l, V8.Form.truthy a.id = true)
    (hp : y.p = x.p) (hauto : y.auto = x.auto) (hgood : g.Good) (hx : formOut x g con f F u = some (info, src)) :
    ∃ files, formBack y g con f (folder src) = some (some ⟨u, info.name, .str u⟩, files) ∧
      ∀ n nd, (n, nd) ∈ files ↔ (n = u ∨ n = u ++ ".0".toList ∨ n = u ++ ".1".toList) ∧ F n = some nd := by
  refine C64_object x y g con f F u d c ver ['0'] info src ⟨file, ne, wf, place, type, uuid, pre, ?_⟩ hp hauto hgood hx
  have e0 : dot u ['0'] = u ++ ".0".toList := rfl
  have e1 : dot u ['1'] = u ++ ".1".toList := rfl
  rw [e0, e1, zero]
  refine .ordinary raw rows m _ zwf one module text ?_
  intro v ni' ver' hv
  have hni : ni' = ni := by
    unfold decoderOf at hv
    rw [show supported ['0'] = none by decide] at hv
    simp only at hv
    rcases rv with ⟨h0, rfl⟩ | ⟨h0, rfl⟩ <;> rw [h0] at hv <;> cases hv <;> rfl
  subst hni
  rw [noAuto]
  exact ⟨raw', s, h, paths, V8.OForm.C53_ordinary_form_round_trip_partial ni' g.depth raw raw' s h main inner names paths ids⟩

/-- **C64, ordinary forms with the option auto_include.**  An ordinary form in the layout of the serializer, with a text as its module, comes back with its
module and its elements when auto_include is asked for, if the elements are numbered as a build numbers them (`numbered`; by C70 every form that
has been built is) and the conditions of C69 hold. -/
theorem C64_ordinary_auto_partial {x : Ext} {y : Bld} {g : Lim} {con : Option Text} {F : Text → Option Node} {f : FCls} {u : Text} {d : List (List Val)} {c : Cls}
    {ver : Text} {info : Info} {src : List (Place Node)} (raw raw' : List Val) (rows : List (List Val)) (m : Bytes) (s : V8.OForm.Src) (ni : Nat)
    (file : F u = some (.file (braceFile y.win d))) (ne : d ≠ []) (wf : WFFile d) (place : clsAt (rootVal d) f.site = some (c, ver))
    (type : typeAt (rootVal d) f.site = some ['0']) (uuid : ∃ l, (headerOf c d)[1]? = some (.list l) ∧ l[2]? = some (.str u))
    (pre : PrefixOk x.p y.parent (headerOf c d))
    (zero : F (u ++ ".0".toList) = some (.dir (formDir (braceFile y.win (raw :: rows)) m))) (zwf : WFFile (raw :: rows)) (one : OneOk y.win (F (u ++ ".1".toList)))
    (module : Rebuilt y.win true m m) (text : utf8Text m ≠ none ∨ cpText m ≠ none)
    (rv : (raw[0]? = some (.str "26".toList) ∧ ni = 3) ∨ (raw[0]? = some (.str "27".toList) ∧ ni = 4)) (auto : x.auto = true)
    (h : V8.OAuto.formOut ni g.depth raw = some (raw', s)) (numbered : V8.OAuto.renumForm (V8.OAuto.attrOf raw) g.depth raw = some raw)
    (main : ∀ panel, V8.OForm.get2 raw 1 2 = some (.list panel) → (∀ pr, V8.OForm.get2 panel 1 1 = some (.list pr) → V8.OForm.TidyPages pr) ∧
      ∀ er, panel[2]? = some (.list er) → V8.OAuto.TidyList er ∧ ∀ r ∈ V8.OAuto.allElems g.depth er, V8.OAuto.TidyElem r)
    (names : ∀ t ∈ V8.OForm.allNames s.tree, t ≠ [])
    (paths : (s.data.map (·.1)).Nodup) (includr : ∀ e ∈ s.data, V8.OAuto.insideRef e.1 = V8.OForm.inside e.1)
    (attrs : V8.OAuto.TidyAttrs s.attrs) (links : ∃ ls, V8.OForm.get2 raw 2 3 = some (.list ls))
    (hp : y.p = x.p) (hauto : y.auto = x.auto) (hgood : g.Good) (hx : formOut x g con f F u = some (info, src)) :
    ∃ files, formBack y g con f (folder src) = some (some ⟨u, info.name, .str u⟩, files) ∧
      ∀ n nd, (n, nd) ∈ files ↔ (n = u ∨ n = u ++ ".0".toList ∨ n = u ++ ".1".toList) ∧ F n = some nd := by
  refine C64_object x y g con f F u d c ver ['0'] info src ⟨file, ne, wf, place, type, uuid, pre, ?_⟩ hp hauto hgood hx
  have e0 : dot u ['0'] = u ++ ".0".toList := rfl
  have e1 : dot u ['1'] = u ++ ".1".toList := rfl
  rw [e0, e1, zero]
  refine .ordinary raw rows m _ zwf one module text ?_
  intro v ni' ver' hv
  have hni : ni' = ni := by
    unfold decoderOf at hv
    rw [show supported ['0'] = none by decide] at hv
    simp only at hv
    rcases rv with ⟨h0, rfl⟩ | ⟨h0, rfl⟩ <;> rw [h0] at hv <;> cases hv <;> rfl
  subst hni
  rw [auto]
  obtain ⟨out, h1, h2⟩ := V8.OAuto.C69_renumbered_partial ni' g.depth raw raw' s h main names paths includr attrs links
  rw [numbered] at h1
  replace h1 := Option.some.inj h1
  subst h1
  exact ⟨raw', s, h, paths, h2⟩

/-- **C64, ordinary forms of other versions** (neither 26 nor 27) are not taken apart: they come back whatever is in them. -/
theorem C64_ordinary_other {x : Ext} {y : Bld} {g : Lim} {con : Option Text} {F : Text → Option Node} {f : FCls} {u : Text} {d : List (List Val)} {c : Cls} {ver : Text}
    {info : Info} {src : List (Place Node)} (raw : List Val) (rows : List (List Val)) (m : Bytes) (k : Text)
    (file : F u = some (.file (braceFile y.win d))) (ne : d ≠ []) (wf : WFFile d) (place : clsAt (rootVal d) f.site = some (c, ver))
    (type : typeAt (rootVal d) f.site = some ['0']) (uuid : ∃ l, (headerOf c d)[1]? = some (.list l) ∧ l[2]? = some (.str u))
    (pre : PrefixOk x.p y.parent (headerOf c d))
    (zero : F (u ++ ".0".toList) = some (.dir (formDir (braceFile y.win (raw :: rows)) m))) (zwf : WFFile (raw :: rows)) (one : OneOk y.win (F (u ++ ".1".toList)))
    (module : Rebuilt y.win true m m) (text : utf8Text m ≠ none ∨ cpText m ≠ none)
    (rv : raw[0]? = some (.str k)) (h6 : k ≠ "26".toList) (h7 : k ≠ "27".toList)
    (hp : y.p = x.p) (hauto : y.auto = x.auto) (hgood : g.Good) (hx : formOut x g con f F u = some (info, src)) :
    ∃ files, formBack y g con f (folder src) = some (some ⟨u, info.name, .str u⟩, files) ∧
      ∀ n nd, (n, nd) ∈ files ↔ (n = u ∨ n = u ++ ".0".toList ∨ n = u ++ ".1".toList) ∧ F n = some nd := by
  refine C64_object x y g con f F u d c ver ['0'] info src ⟨file, ne, wf, place, type, uuid, pre, ?_⟩ hp hauto hgood hx
  have e0 : dot u ['0'] = u ++ ".0".toList := rfl
  have e1 : dot u ['1'] = u ++ ".1".toList := rfl
  rw [e0, e1, zero]
  refine .ordinary raw rows m _ zwf one module text ?_
  intro v ni ver' hv
  exfalso
  have := decoder_version hv
  rw [rv] at this
  rcases this with h | h
  · exact h6 (Val.str.inj (Option.some.inj h))
  · exact h7 (Val.str.inj (Option.some.inj h))

/-! ## the code -/

/-- **C64, the code of a managed form in the sources** is the literal of its third value, without the doubled quotes, in UTF-8 in the file
`<class>.obj.bsl`; there is no file if there is no code. -/
theorem C64_managed_code (x : Ext) (g : Lim) (con : Option Text) (f : FCls) (F : Text → Option Node) (u : Text) (info : Info) (src : List (Place Node))
    (root : Val) (raw : List Val) (rows : List (List Val)) (b : Bytes) (code : Text) (hr : TreeOf F u root) (type : typeAt root f.site = some ['1'])
    (hx : formOut x g con f F u = some (info, src)) (zero : F (info.uuid ++ ".0".toList) = some (.file b)) (read : braceRead b = some (raw :: rows))
    (rv : tokIn raw[0]? [['4'], ['3'], ['2']] = true) (lit : raw[2]? = some (.str (quoted code))) :
    fileIn (folder src) (f.name ++ ".obj.bsl".toList) = if code = [] then none else some (utf8 (osWrite x.win code)) := by
  obtain ⟨b', d, cv, hd, h', r, ty, z, one, v, e, hF, hb, hc, hg, hdec, hs, hty, hz, ho, hv, he, rfl⟩ := formOut_some hx
  have hroot := tree_unique hr hF hb
  subst hroot
  rw [type] at hty
  cases hty
  have hsrc := form_sources (f := f) (r := r) (ty := ['1']) (ver := cv.2) (v := v.1) (z := z) (e := e) hdec
  have e0 : dot info.uuid ['0'] = info.uuid ++ ".0".toList := rfl
  rw [e0, zero] at hz
  unfold zeroOut at hz
  rw [if_neg (by decide)] at hz
  simp only [read, Option.bind_some] at hz
  rw [getset, if_pos ⟨(List.getElem?_eq_some_iff.mp lit).1, rv⟩, lit] at hz
  simp only [Option.some.injEq] at hz
  have hco : formCodeOut (quoted code) = code := V8.Module.C29_code_back code
  rw [hco] at hz
  subst hz
  have hb := hsrc.bsl
  have en : bslName f.name objWord = f.name ++ ".obj.bsl".toList := by
    simp only [bslName, dot, List.append_assoc]; rfl
  rw [← en, hb]
  unfold codeFiles writeDecode
  simp only
  by_cases h0 : code = []
  · rw [if_pos h0, if_pos h0]
  · rw [if_neg h0, if_neg h0, if_neg (by decide)]
    rfl

/-- **C64, the code of a form is edited in the sources.**  A build with the text `t` in `<class>.obj.bsl` (any line ends) gives the same form with
`t` in the place of its code, and leaves everything else as it was. -/
theorem C64_edited_module {x : Ext} {y : Bld} {g : Lim} {con : Option Text} {F S : Text → Option Node} {f : FCls} {u : Text} {d : List (List Val)} {c : Cls} {ver : Text}
    {info : Info} {src : List (Place Node)} (raw : List Val) (rows : List (List Val)) (code t : Text) (w : Bool)
    (hf : FormFit x y g con F f u d c ver ['1'])
    (zero : F (u ++ ".0".toList) = some (.file (braceFile y.win (raw :: rows)))) (zwf : WFFile (raw :: rows)) (one : OneOk y.win (F (u ++ ".1".toList)))
    (rv : tokIn raw[0]? [['4'], ['3'], ['2']] = true) (lit : raw[2]? = some (.str (quoted code))) (elems : ManagedOk g con raw)
    (hp : y.p = x.p) (hgood : g.Good) (hx : formOut x g con f F u = some (info, src))
    (cr : '\r' ∉ t) (mark : t.head? ≠ some bom)
    (edit : S (f.name ++ ".obj.bsl".toList) = some (.file (utf8 (osWrite w t))))
    (rest : ∀ n, n ≠ f.name ++ ".obj.bsl".toList → S n = folder src n) :
    formBack y g con f S = some (some ⟨u, info.name, .str u⟩, written [(u, F u),
      (u ++ ".0".toList, some (.file (braceFile y.win (raw.set 2 (.str (quoted t)) :: rows)))), (u ++ ".1".toList, F (u ++ ".1".toList))]) := by
  have e0 : dot u ['0'] = u ++ ".0".toList := rfl
  have e1 : dot u ['1'] = u ++ ".1".toList := rfl
  have en : bslName f.name objWord = f.name ++ ".obj.bsl".toList := by
    simp only [bslName, dot, List.append_assoc]; rfl
  obtain ⟨z, one', v, e, r, j, hu, hz, ho, hv, he, hsrc, hplace, hval⟩ := form_read hf hp hx
  have hne : ∀ n ∈ ["id.json".toList, "json".toList, "elem.json".toList], dot f.name n ≠ f.name ++ ".obj.bsl".toList := by
    intro n hn h
    rw [← en] at h
    have h2 : dot f.name n = dot f.name (dot objWord "bsl".toList) := by
      rw [h]; simp only [bslName, dot, List.append_assoc, List.cons_append]
    have h3 := dot_inj h2
    subst h3
    revert hn
    decide +kernel
  have hrest : ∀ n ∈ ["id.json".toList, "json".toList, "elem.json".toList], fileIn S (dot f.name n) = fileIn (folder src) (dot f.name n) := by
    intro n hn
    unfold fileIn
    rw [rest _ (hne n hn)]
  have hid : fileIn S (idName f.name) = _ := (hrest "id.json".toList (by decide)).trans hsrc.id
  have hob : fileIn S (objName f.name) = _ := (hrest "json".toList (by decide)).trans hsrc.obj
  have hel : fileIn S (elemName f.name) = _ := (hrest "elem.json".toList (by decide)).trans hsrc.elem
  rw [hu, e0, zero] at hz
  rw [hu] at ho
  obtain ⟨form1, form2, b1, b2, b3, b4, b5⟩ := managed_back (x := x) (y := y) (F := F) (t := t) (S := S) (f := f) (u := u) (j := j) zwf
    (by rw [e1]; exact one) rv lit elems hgood hz ho hv he
    (fun hj hzz => by
      obtain ⟨hi, henc⟩ := inline_entries hsrc.hasNot hj hzz
      by_cases ht : t = []
      · subst ht
        have hh : hasCode j = true := by unfold hasCode; rw [hi]; decide +kernel
        have e1 : encIn j = some .utf8sig := by unfold encIn; rw [henc]
        unfold codeBack
        rw [if_pos hh, e1, Option.bind_some, en]
        unfold fileIn
        rw [edit]
        simp only [readCode]
        rw [if_neg (by decide), V8.Module.read_source w [] (by simp)]
        rfl
      · refine code_inline w f.name S j t cr mark hi henc ?_
        rw [en]
        unfold fileIn
        rw [edit]
        simp only [writeDecode, if_neg ht]
        rw [if_neg (by decide)]
        rfl)
    hsrc.has hel
  unfold formBack
  rw [hid, hob]
  simp only [hsrc.read, Option.bind_some, hsrc.header, hplace, hsrc.type, hsrc.form, b1]
  rw [if_neg (by decide), b2]
  simp only [Option.bind_some, b3, hval, rootOf_rootVal, b4, Option.map_some, b5]
  rw [hu, hf.file, e0, e1]

/-- **C64, the module of an ordinary form in the sources**: a UTF-8 module without byte order mark is the text, with the directives uncommented, in the file
`<class>.obj.bsl`. -/
theorem C64_ordinary_code (x : Ext) (g : Lim) (con : Option Text) (f : FCls) (F : Text → Option Node) (u : Text) (info : Info) (src : List (Place Node))
    (root : Val) (D : Text → Option Bytes) (t : Text) (hr : TreeOf F u root) (type : typeAt root f.site = some ['0'])
    (hx : formOut x g con f F u = some (info, src)) (zero : F (info.uuid ++ ".0".toList) = some (.dir D)) (m : D "module".toList = some (utf8 t)) (ht : t ≠ []) :
    fileIn (folder src) (f.name ++ ".obj.bsl".toList) = some (utf8 (osWrite x.win (V8.Module.uncomment (universal t)))) := by
  obtain ⟨b', d, cv, hd, h', r, ty, z, one, v, e, hF, hb, hc, hg, hdec, hs, hty, hz, ho, hv, he, rfl⟩ := formOut_some hx
  have hroot := tree_unique hr hF hb
  subst hroot
  rw [type] at hty
  cases hty
  have hsrc := form_sources (f := f) (r := r) (ty := ['0']) (ver := cv.2) (v := v.1) (z := z) (e := e) hdec
  have e0 : dot info.uuid ['0'] = info.uuid ++ ".0".toList := rfl
  rw [e0, zero] at hz
  unfold zeroOut at hz
  rw [if_pos rfl] at hz
  simp only [m, Option.map_eq_some_iff] at hz
  obtain ⟨form, _, rfl⟩ := hz
  have hb := hsrc.bsl
  have en : bslName f.name objWord = f.name ++ ".obj.bsl".toList := by
    simp only [bslName, dot, List.append_assoc]; rfl
  rw [← en, hb]
  exact V8.Root.extractModule_utf8 x.win true t ht

/-! ## what does not come back -/

theorem elemsOut_length {g : Lim} {auto : Bool} {con : Option Text} {v : Option Decoder} {form : List File} {e : List File × JT}
    (h : elemsOut g auto con v form = some e) : e.1.length = form.length := by
  unfold elemsOut at h
  split at h
  · split at h <;> (cases h; rfl)
  · split at h <;> (cases h; rfl)
  · cases h; rfl

theorem elemsIn_length {g : Lim} {auto : Bool} {con : Option Text} {ty : Text} {elem : Option Bytes} {form form' : List File}
    (h : elemsIn g auto con ty elem form = some form') : form'.length = form.length := by
  unfold elemsIn at h
  split at h
  · rw [Option.bind_eq_some_iff] at h
    obtain ⟨v, _, h⟩ := h
    split at h
    · cases h; rfl
    · simp only [Option.bind_eq_some_iff, Option.map_eq_some_iff] at h
      obtain ⟨_, _, _, _, rfl⟩ := h
      rfl
    · split at h <;>
      · simp only [Option.bind_eq_some_iff, Option.map_eq_some_iff] at h
        obtain ⟨_, _, _, _, rfl⟩ := h
        rfl
  · cases h; rfl

/-- what a build that succeeds has done -/
theorem formBack_some {y : Bld} {g : Lim} {con : Option Text} {f : FCls} {S : Text → Option Node} {gv : Given} {files : List (Text × Node)}
    (h : formBack y g con f S = some (some gv, files)) :
    ∃ bi bo j hv c ty form code form1 form2 r d z, fileIn S (idName f.name) = some bi ∧ fileIn S (objName f.name) = some bo ∧ readFile bo = some j ∧
      treeAt j "header".toList = some hv ∧ clsAt hv f.site = some c ∧ textAt j typeWord = some ty ∧ formAt j = some form ∧
      codeBack f.name S j = some code ∧ (if ty = ['0'] then some form else putCode code form) = some form1 ∧
      elemsIn g y.auto con ty (fileIn S (elemName f.name)) form1 = some form2 ∧ buildVal y c.1 [] ⟨bi, bo⟩ = some r ∧
      Object.rootOf r.2.2 = some d ∧ zeroBack y.win ty j code form2 = some z ∧ gv = ⟨r.1, r.2.1, .str r.1⟩ ∧
      files = written [(r.1, some (.file (braceFile y.win d))), (dot r.1 ['0'], z),
                  (dot r.1 ['1'], (form2[1]?).map (fun d => Node.file (braceFile y.win d)))] := by
  unfold formBack at h
  cases h1 : fileIn S (idName f.name) with
  | none => rw [h1] at h; cases h
  | some bi =>
    cases h2 : fileIn S (objName f.name) with
    | none => rw [h1, h2] at h; cases h
    | some bo =>
      rw [h1, h2] at h
      simp only [Option.bind_eq_some_iff, Option.map_eq_some_iff] at h
      obtain ⟨j, hj, hv, hh, c, hc, ty, hty, form, hf, code, hcode, form1, hf1, form2, hf2, r, hr, d, hd, z, hz, he⟩ := h
      cases he
      exact ⟨bi, bo, j, hv, c, ty, form, code, form1, form2, r, d, z, rfl, rfl, hj, hh, hc, hty, hf, hcode, hf1, hf2, hr, hd, hz, rfl, rfl⟩

/-- **C64, the shape of `uuid.0`.**  An ordinary form whose `uuid.0` is a file cannot be extracted, nor a managed form whose `uuid.0` is a folder: a form
that was extracted has the shape of its type. -/
theorem C64_shape_neg (x : Ext) (g : Lim) (con : Option Text) (f : FCls) (F : Text → Option Node) (u : Text) (root : Val) (ty : Text) (info : Info)
    (src : List (Place Node)) (hr : TreeOf F u root) (type : typeAt root f.site = some ty) (hx : formOut x g con f F u = some (info, src)) :
    (ty = ['0'] → ∀ b, F (info.uuid ++ ".0".toList) ≠ some (.file b)) ∧ (ty ≠ ['0'] → ∀ D, F (info.uuid ++ ".0".toList) ≠ some (.dir D)) := by
  obtain ⟨b', d, cv, hd, h', r, ty', z, one, v, e, hF, hb, hc, hg, hdec, hs, hty, hz, ho, hv, he, rfl⟩ := formOut_some hx
  have hroot := tree_unique hr hF hb
  subst hroot
  rw [type] at hty
  cases hty
  have e0 : dot info.uuid ['0'] = info.uuid ++ ".0".toList := rfl
  rw [e0] at hz
  unfold zeroOut at hz
  constructor
  · intro h b hb
    rw [if_pos h, hb] at hz
    cases hz
  · intro h D hD
    rw [if_neg h, hD] at hz
    cases hz

/-- **C64, a managed form without `uuid.0`** gets one when it is built. -/
theorem C64_managed_missing_neg (x : Ext) (y : Bld) (g : Lim) (con : Option Text) (f : FCls) (F : Text → Option Node) (u : Text) (root : Val) (ty : Text) (info : Info)
    (src : List (Place Node)) (gv : Given) (files : List (Text × Node)) (hr : TreeOf F u root) (type : typeAt root f.site = some ty) (managed : ty ≠ ['0'])
    (hx : formOut x g con f F u = some (info, src)) (hb : formBack y g con f (folder src) = some (some gv, files))
    (zero : F (info.uuid ++ ".0".toList) = none) : ∃ nd, (gv.uu ++ ".0".toList, nd) ∈ files := by
  obtain ⟨b', d, cv, hd, h', r, ty', z, one, v, e, hF, hb', hc, hg, hdec, hs, hty, hz, ho, hv, he, rfl⟩ := formOut_some hx
  have hroot := tree_unique hr hF hb'
  subst hroot
  rw [type] at hty
  cases hty
  have hsrc := form_sources (f := f) (r := r) (ty := ty) (ver := cv.2) (v := v.1) (z := z) (e := e) hdec
  generalize folder _ = S at hsrc hb
  generalize JT.obj _ = j at hsrc
  obtain ⟨bi, bo, j', hv', c', ty', form, code, form1, form2, r', d', z', hid, hobj, hj, hh, hc', hty', hform, hcode, hf1, hf2, hr', hd', hz', rfl, rfl⟩ :=
    formBack_some hb
  rw [hsrc.obj] at hobj
  cases hobj
  rw [hsrc.read] at hj
  cases hj
  rw [hsrc.type] at hty'
  cases hty'
  rw [hsrc.form] at hform
  cases hform
  have e0 : dot info.uuid ['0'] = info.uuid ++ ".0".toList := rfl
  rw [e0, zero] at hz
  unfold zeroOut at hz
  rw [if_neg managed] at hz
  cases hz
  rw [if_neg managed] at hf1
  have hv2 : v = ([], none) := by
    simp only [firstOf, if_neg managed, List.cons_append, List.nil_append] at hv
    cases hv
    rfl
  subst hv2
  simp only [firstOf, if_neg managed, List.cons_append, List.nil_append, elemsOut] at he
  cases he
  have hfm : form1 = [] :: one := by
    have hput : ∀ t, putCode.put ([] :: one) t = some ([] :: one) := fun t => rfl
    unfold putCode at hf1
    cases code with
    | none => rw [hput] at hf1; exact (Option.some.inj hf1).symm
    | some cd =>
      cases cd with
      | bytes _ => cases hf1
      | text t => rw [hput] at hf1; exact (Option.some.inj hf1).symm
  subst hfm
  cases hf2
  unfold zeroBack at hz'
  rw [if_neg managed] at hz'
  cases hz'
  exact ⟨_, List.mem_filterMap.mpr ⟨_, List.mem_cons_of_mem _ List.mem_cons_self, rfl⟩⟩

/-- **C64, an ordinary form without `uuid.0`** loses `uuid.1`. -/
theorem C64_ordinary_second_lost_neg (x : Ext) (y : Bld) (g : Lim) (con : Option Text) (f : FCls) (F : Text → Option Node) (u : Text) (root : Val) (info : Info)
    (src : List (Place Node)) (gv : Given) (files : List (Text × Node)) (hr : TreeOf F u root) (type : typeAt root f.site = some ['0'])
    (hx : formOut x g con f F u = some (info, src)) (hb : formBack y g con f (folder src) = some (some gv, files))
    (zero : F (info.uuid ++ ".0".toList) = none) : ∀ nd, (gv.uu ++ ".1".toList, nd) ∉ files := by
  obtain ⟨b', d, cv, hd, h', r, ty', z, one, v, e, hF, hb', hc, hg, hdec, hs, hty, hz, ho, hv, he, rfl⟩ := formOut_some hx
  have hroot := tree_unique hr hF hb'
  subst hroot
  rw [type] at hty
  cases hty
  have hsrc := form_sources (f := f) (r := r) (ty := ['0']) (ver := cv.2) (v := v.1) (z := z) (e := e) hdec
  generalize folder _ = S at hsrc hb
  generalize JT.obj _ = j at hsrc
  obtain ⟨bi, bo, j', hv', c', ty', form, code, form1, form2, r', d', z', hid, hobj, hj, hh, hc', hty', hform, hcode, hf1, hf2, hr', hd', hz', rfl, rfl⟩ :=
    formBack_some hb
  rw [hsrc.obj] at hobj
  cases hobj
  rw [hsrc.read] at hj
  cases hj
  rw [hsrc.type] at hty'
  cases hty'
  rw [hsrc.form] at hform
  cases hform
  have e0 : dot info.uuid ['0'] = info.uuid ++ ".0".toList := rfl
  rw [e0, zero] at hz
  cases hz
  rw [if_pos rfl] at hf1
  cases hf1
  have hone : one.length ≤ 1 := by
    unfold oneOut at ho
    cases hfa : fileAt F (dot info.uuid ['1']) with
    | none => rw [hfa] at ho; cases ho
    | some w =>
      rw [hfa] at ho
      cases w with
      | none => cases ho; simp
      | some b =>
        simp only [Option.map_eq_some_iff] at ho
        obtain ⟨q, _, rfl⟩ := ho
        simp
  have h1 := elemsOut_length he
  have h2 := elemsIn_length hf2
  have hl : form2.length ≤ 1 := by
    rw [h2, h1]
    simp only [firstOf, if_true, List.nil_append]
    exact hone
  intro nd hm
  have hi : entry j (infoKey objWord) = none := hsrc.hasNot _ List.mem_cons_self (by
    unfold formPlaces
    by_cases hn : e.1 = []
    · rw [if_pos hn]; simp only [List.map_cons, List.map_nil]; decide +kernel
    · rw [if_neg hn]; simp only [List.map_cons, List.map_nil]; decide +kernel)
  unfold zeroBack hasCode at hz'
  rw [if_pos rfl, hi] at hz'
  cases hz'
  rw [List.getElem?_eq_none (by omega)] at hm
  have hm2 := List.mem_filterMap.mp hm
  obtain ⟨q, hq, hq2⟩ := hm2
  simp only [List.mem_cons, List.not_mem_nil, or_false] at hq
  rcases hq with rfl | rfl | rfl
  · simp only [Option.map_some, Option.some.injEq, Prod.mk.injEq] at hq2
    have := congrArg List.length hq2.1
    rw [List.length_append] at this
    have h2 : ".1".toList.length = 2 := by decide
    omega
  · cases hq2
  · cases hq2

/-- **C64, an ordinary form whose module is no text** (neither UTF-8 nor windows-1251) can be extracted and never built. -/
theorem C64_binary_module_neg (x : Ext) (y : Bld) (g : Lim) (con : Option Text) (f : FCls) (F : Text → Option Node) (u : Text) (root : Val) (info : Info)
    (src : List (Place Node)) (D : Text → Option Bytes) (m : Bytes) (hr : TreeOf F u root) (type : typeAt root f.site = some ['0'])
    (hx : formOut x g con f F u = some (info, src)) (zero : F (info.uuid ++ ".0".toList) = some (.dir D)) (hm : D "module".toList = some m)
    (h8 : utf8Text m = none) (hcp : cpText m = none) : formBack y g con f (folder src) = none := by
  obtain ⟨b', d, cv, hd, h', r, ty', z, one, v, e, hF, hb', hc, hg, hdec, hs, hty, hz, ho, hv, he, rfl⟩ := formOut_some hx
  have hroot := tree_unique hr hF hb'
  subst hroot
  rw [type] at hty
  cases hty
  have hsrc := form_sources (f := f) (r := r) (ty := ['0']) (ver := cv.2) (v := v.1) (z := z) (e := e) hdec
  generalize folder _ = S at hsrc ⊢
  generalize JT.obj _ = j at hsrc
  cases hb : formBack y g con f S with
  | none => rfl
  | some q =>
    exfalso
    obtain ⟨gv, files⟩ := q
    have hgv : gv ≠ none := by
      intro h
      subst h
      unfold formBack at hb
      rw [hsrc.id, hsrc.obj] at hb
      simp only [Option.bind_eq_some_iff, Option.map_eq_some_iff] at hb
      obtain ⟨_, _, _, _, _, _, _, _, _, _, _, _, _, _, _, _, _, _, _, _, _, _, he⟩ := hb
      cases he
    cases gv with
    | none => exact hgv rfl
    | some gv =>
    obtain ⟨bi, bo, j', hv', c', ty', form, code, form1, form2, r', d', z', hid, hobj, hj, hh, hc', hty', hform, hcode, hf1, hf2, hr', hd', hz', rfl, rfl⟩ :=
      formBack_some hb
    rw [hsrc.obj] at hobj
    cases hobj
    rw [hsrc.read] at hj
    cases hj
    rw [hsrc.type] at hty'
    cases hty'
    have e0 : dot info.uuid ['0'] = info.uuid ++ ".0".toList := rfl
    rw [e0, zero] at hz
    have hraw : readRaw true (some m) = (some (.bytes m), .bin) := by simp only [readRaw, h8, hcp]
    unfold zeroOut at hz
    rw [if_pos rfl] at hz
    simp only [hm, hraw, Option.map_eq_some_iff] at hz
    obtain ⟨fd, hfd, rfl⟩ := hz
    have hi : entry j (infoKey objWord) = some (.int 1) := hsrc.has (infoKey objWord, some (.int 1)) (by unfold formPlaces; simp)
    have henc : entry j (encKey objWord) = some (.str (encName .bin)) := hsrc.has (encKey objWord, some _) (by unfold formPlaces; simp)
    have hh : hasCode j = true := by unfold hasCode; rw [hi]; rfl
    have hei : encIn j = some .bin := by
      unfold encIn
      rw [henc]
      unfold encOf
      rw [henc]
      exact encOf_name _
    unfold zeroBack at hz'
    rw [if_pos rfl, if_pos hh] at hz'
    cases form2 with
    | nil => cases hz'
    | cons d2 rest =>
      simp only [hei, Option.bind_some, Option.map_eq_some_iff] at hz'
      obtain ⟨q, hq, _⟩ := hz'
      unfold moduleBack at hq
      cases hcd : code.getD (.text []) with
      | bytes _ => rw [hcd] at hq; cases hq
      | text t => rw [hcd] at hq; simp only [if_true] at hq; cases hq

/-- **C64, an ordinary form without a module** gets an empty one when it is built. -/
theorem C64_module_added_neg (x : Ext) (y : Bld) (g : Lim) (con : Option Text) (f : FCls) (F : Text → Option Node) (u : Text) (root : Val) (info : Info)
    (src : List (Place Node)) (gv : Given) (files : List (Text × Node)) (D : Text → Option Bytes) (hr : TreeOf F u root)
    (type : typeAt root f.site = some ['0']) (hx : formOut x g con f F u = some (info, src)) (hb : formBack y g con f (folder src) = some (some gv, files))
    (zero : F (info.uuid ++ ".0".toList) = some (.dir D)) (hm : D "module".toList = none) :
    ∃ D', (gv.uu ++ ".0".toList, Node.dir D') ∈ files ∧ D' "module".toList = some [] := by
  obtain ⟨b', d, cv, hd, h', r, ty', z, one, v, e, hF, hb', hc, hg, hdec, hs, hty, hz, ho, hv, he, rfl⟩ := formOut_some hx
  have hroot := tree_unique hr hF hb'
  subst hroot
  rw [type] at hty
  cases hty
  have hsrc := form_sources (f := f) (r := r) (ty := ['0']) (ver := cv.2) (v := v.1) (z := z) (e := e) hdec
  generalize folder _ = S at hsrc hb
  generalize JT.obj _ = j at hsrc
  obtain ⟨bi, bo, j', hv', c', ty', form, code, form1, form2, r', d', z', hid, hobj, hj, hh, hc', hty', hform, hcode, hf1, hf2, hr', hd', hz', rfl, rfl⟩ :=
    formBack_some hb
  rw [hsrc.obj] at hobj
  cases hobj
  rw [hsrc.read] at hj
  cases hj
  rw [hsrc.type] at hty'
  cases hty'
  have e0 : dot info.uuid ['0'] = info.uuid ++ ".0".toList := rfl
  rw [e0, zero] at hz
  unfold zeroOut at hz
  rw [if_pos rfl] at hz
  simp only [hm, readRaw, Option.map_eq_some_iff] at hz
  obtain ⟨fd, hfd, rfl⟩ := hz
  have hi : entry j (infoKey objWord) = some (.int 1) := hsrc.has (infoKey objWord, some (.int 1)) (by unfold formPlaces; simp)
  have henc : entry j (encKey objWord) = some (.str (encName .utf8)) := hsrc.has (encKey objWord, some _) (by unfold formPlaces; simp)
  have hh : hasCode j = true := by unfold hasCode; rw [hi]; rfl
  have hei : encIn j = some .utf8 := by
    unfold encIn
    rw [henc]
    unfold encOf
    rw [henc]
    exact encOf_name _
  have hc2 : code = some (.text []) := by
    unfold codeBack at hcode
    rw [if_pos hh, hei, Option.bind_some, hsrc.bsl] at hcode
    cases hcode
    rfl
  subst hc2
  unfold zeroBack at hz'
  rw [if_pos rfl, if_pos hh] at hz'
  cases form2 with
  | nil => cases hz'
  | cons d2 rest =>
    simp only [hei, Option.bind_some, Option.map_eq_some_iff, Option.getD_some] at hz'
    obtain ⟨q, hq, rfl⟩ := hz'
    refine ⟨_, List.mem_filterMap.mpr ⟨_, List.mem_cons_of_mem _ List.mem_cons_self, rfl⟩, ?_⟩
    unfold formDir
    rw [if_neg (by decide), if_pos rfl]
    unfold moduleBack at hq
    simp only at hq
    rw [if_neg (by decide)] at hq
    have : comment [] = [] := by unfold V8.Module.comment; rfl
    rw [this] at hq
    have hw : writeText y.win .utf8 [] = some [] := by cases y.win <;> decide +kernel
    rw [← hq, hw]

/-- **C64, an ordinary form that cannot be taken apart** is extracted all the same, and never built (without auto_include; with it see
C69_failed_form_emptied_neg). -/
theorem C64_ordinary_failed_neg (x : Ext) (y : Bld) (g : Lim) (con : Option Text) (f : FCls) (F : Text → Option Node) (u : Text) (root : Val) (info : Info)
    (src : List (Place Node)) (D : Text → Option Bytes) (b : Bytes) (raw : List Val) (rows : List (List Val)) (ni : Nat) (hr : TreeOf F u root)
    (type : typeAt root f.site = some ['0']) (hx : formOut x g con f F u = some (info, src)) (zero : F (info.uuid ++ ".0".toList) = some (.dir D))
    (hfm : D "form".toList = some b) (read : braceRead b = some (raw :: rows))
    (rv : (raw[0]? = some (.str "26".toList) ∧ ni = 3) ∨ (raw[0]? = some (.str "27".toList) ∧ ni = 4))
    (noAuto : x.auto = false) (noAuto' : y.auto = false) (fails : V8.OForm.formOut ni g.depth raw = none) : formBack y g con f (folder src) = none := by
  obtain ⟨b', d, cv, hd, h', r, ty', z, one, v, e, hF, hb', hc, hg, hdec, hs, hty, hz, ho, hv, he, rfl⟩ := formOut_some hx
  have hroot := tree_unique hr hF hb'
  subst hroot
  rw [type] at hty
  cases hty
  have hsrc := form_sources (f := f) (r := r) (ty := ['0']) (ver := cv.2) (v := v.1) (z := z) (e := e) hdec
  generalize folder _ = S at hsrc ⊢
  generalize JT.obj _ = j at hsrc
  have e0 : dot info.uuid ['0'] = info.uuid ++ ".0".toList := rfl
  rw [e0, zero] at hz
  unfold zeroOut at hz
  rw [if_pos rfl] at hz
  simp only [hfm, Option.bind_some, read, Option.map_some, Option.some.injEq] at hz
  subst hz
  simp only [firstOf, List.cons_append, List.nil_append] at hv he
  have hvd : ∃ t ver, ∀ more, decoderOf ['0'] ((raw :: rows) :: more) = some (t, some (.ordinary ni ver)) := by
    rcases rv with ⟨h0, rfl⟩ | ⟨h0, rfl⟩
    · refine ⟨"0-26".toList, 26, fun more => ?_⟩
      unfold decoderOf
      rw [show supported ['0'] = none by decide]
      simp only [h0]
      rfl
    · refine ⟨"0-27".toList, 27, fun more => ?_⟩
      unfold decoderOf
      rw [show supported ['0'] = none by decide]
      simp only [h0]
      rfl
  obtain ⟨t, ver, hvd⟩ := hvd
  rw [hvd] at hv
  cases hv
  simp only [elemsOut] at he
  rw [noAuto, if_neg (by decide)] at he
  have hta : ∀ left, V8.OForm.takeApart ni g.depth raw left = (raw, ⟨left, [], []⟩) := by
    intro left
    rw [V8.OForm.takeApart, fails]
  rw [hta] at he
  cases he
  unfold formBack
  rw [hsrc.id, hsrc.obj]
  simp only [hsrc.read, hsrc.header, Option.bind_some, hsrc.type, hsrc.form]
  cases clsAt r f.site with
  | none => rfl
  | some c =>
    simp only [Option.bind_some]
    cases codeBack f.name S j with
    | none => rfl
    | some code =>
      simp only [Option.bind_some, if_true]
      have hel : elemsIn g y.auto con ['0'] (fileIn S (elemName f.name)) ((raw :: rows) :: one) = none := by
        simp only [elemsIn]
        rw [hvd, Option.bind_some]
        simp only
        rw [noAuto', if_neg (by decide), hsrc.elem, Option.bind_some, C58_round_trip _ _ (ordinaryJson_wf _ _), Option.bind_some,
          ordinaryOf_ordinaryJson _ ⟨leftAttrs ni raw, [], []⟩ List.nodup_nil, Option.bind_some]
        have := V8.OForm.C45_failed_ordinary_form_never_builds_neg ni g.depth g.depth raw (leftAttrs ni raw) fails
        rw [hta] at this
        rw [this]
        rfl
      rw [hel]
      rfl

end V8.FormObj
