import Verif.Props.OrderRoot
import Verif.Props.DescribeEx
/-
Examples for C84: the configuration with two common modules is extracted; the folders of the modules are renamed and listed in the other order.
-/
namespace V8.Order
open V8.Brace V8.Enc V8.JsonText V8.Header V8.Store V8.Tree V8.Product
open V8.Nested hiding Handler Env
open V8.Object hiding Cls
open V8.Misc (Cls)
open V8.Encode (lower)
open V8.Root (pE pInfo extractProduct)
open V8.Folders

/-- what an extracted object delivers to its parent: the identifier and the name of the description -/
theorem entry_known {g : V8.FormObj.Lim} {x x' : Ext} {y : Bld} {v : Text} {ver : Option Text} {k : Kind} {F : Text → Option Node} {u : Text} {info : Info} {os : List Obj} {src : List (Place Bytes)}
    {K : Text → Option Handler} {ty : Text} (hk : Good k) (hK : K ty = some (handlerOf g x' y v (.file k))) (hx : extractAll x k ver F u = some (info, os, src))
    {ord : Text → List Entry → List Entry} {con : Option Text} {parent nm : Text} {es : List Entry} {fs : List (Text × Node)}
    (h : buildDir K ord con parent ty nm (.mk (nodes src) .nil) = some (es, fs)) : es = [] ∨ ∃ d, es = [⟨ty, info.uuid, info.name, d⟩] := by
  obtain ⟨bi, jid, bo, j, root, h1, h2, h3, h4, h5, h6, _⟩ := V8.Describe.describable hk hx
  rw [buildDir, hK] at h
  simp only [] at h
  by_cases hh : (handlerOf g x' y v (.file k)).has (folder (nodes src)) = false
  · rw [if_pos hh] at h
    cases h
    exact .inl rfl
  rw [if_neg hh, if_pos (.inr rfl)] at h
  simp only [Option.map_eq_some_iff] at h
  obtain ⟨⟨o, f⟩, hb, he⟩ := h
  rw [Prod.mk.injEq] at he
  obtain ⟨rfl, rfl⟩ := he
  have hb' : buildFull { y with parent := parent, ver := some v } k [] (fileIn (folder (nodes src))) = some (o, f) := hb
  unfold buildFull at hb'
  rw [V8.Describe.file_in h1, V8.Describe.file_in h4] at hb'
  simp only [Option.bind_eq_some_iff, Option.map_eq_some_iff] at hb'
  obtain ⟨_, _, ⟨u', n', w⟩, hv, _, _, _, _, _, _, _, _, he⟩ := hb'
  rw [Prod.mk.injEq] at he
  obtain ⟨rfl, _⟩ := he
  obtain ⟨jid', j', _, _, _, _, g1, g2, g3, g4, _⟩ := V8.Describe.build_steps.mp hv
  cases h2.symm.trans g1
  cases h5.symm.trans g2
  cases h3.symm.trans g3
  cases h6.symm.trans g4
  by_cases ht : truthy (.str info.uuid) = true
  · exact .inr ⟨.str info.uuid, by unfold entries; simp only [ht, if_true]⟩
  · exact .inl (by unfold entries; simp only [ht, Bool.false_eq_true, if_false])

/-- nothing is nested: nothing to tell apart -/
theorem none_unambiguous (K : Text → Option Handler) : Unambiguous K .nil := by
  intro t hb
  generalize hs : Subs.nil = s at hb
  cases hb with
  | here =>
    subst hs
    intro ord con parent es fs _ h
    rw [buildSubs] at h
    cases h
    exact nil_distinct
  | @deeper l ty nm f t u hm hb =>
    cases l with
    | nil => cases hm
    | cons p l => cases hs

/-- the modules can be told apart -/
theorem zUnambiguous {K : Text → Option Handler} {g : V8.FormObj.Lim} {x' : Ext} {y : Bld} {v : Text} (hK : K zM = some (handlerOf g x' y v (.file zKM))) {s1 s2 : List (Place Bytes)}
    (e1 : extractAll xX zKM (some "803".toList) (zF true) ['d'] = some (zID, [], s1)) (e2 : extractAll xX zKM (some "803".toList) (zF true) ['e'] = some (zIE, [], s2)) (a b : Text) :
    Unambiguous K (.ofList [(zM, a, .mk (nodes s1) .nil), (zM, b, .mk (nodes s2) .nil)]) := by
  intro t hb
  generalize hs : Subs.ofList [(zM, a, Dir.mk (nodes s1) .nil), (zM, b, Dir.mk (nodes s2) .nil)] = s at hb
  cases hb with
  | here =>
    subst hs
    intro ord con parent es fs _ h
    rw [Subs.ofList, Subs.ofList, Subs.ofList, buildSubs, buildSubs, buildSubs] at h
    simp only [Option.bind_eq_some_iff, Option.map_eq_some_iff] at h
    obtain ⟨⟨x1, f1⟩, h1, ⟨x2, f2⟩, ⟨⟨x3, f3⟩, h2, ⟨x4, f4⟩, h3, h4⟩, h5⟩ := h
    cases h3
    cases h4
    cases h5
    have hd : Distinct [⟨zM, zID.uuid, zID.name, .none⟩, ⟨zM, zIE.uuid, zIE.name, .none⟩] := ⟨by decide +kernel, by decide +kernel⟩
    rcases entry_known V8.Describe.zGood hK e1 h1 with g1 | ⟨d1, g1⟩ <;> rcases entry_known V8.Describe.zGood hK e2 h2 with g2 | ⟨d2, g2⟩
    · simp only [g1, g2, List.append_nil]
      exact nil_distinct
    · simp only [g1, g2, List.append_nil, List.nil_append]
      exact ⟨List.pairwise_singleton _ _, List.pairwise_singleton _ _⟩
    · simp only [g1, g2, List.append_nil]
      exact ⟨List.pairwise_singleton _ _, List.pairwise_singleton _ _⟩
    · simp only [g1, g2, List.append_nil, List.cons_append, List.nil_append]
      exact ⟨hd.names, hd.ids⟩
  | @deeper l ty nm f t u hm hb =>
    cases ofList_inj hs
    simp only [List.mem_cons, List.not_mem_nil, or_false, Prod.mk.injEq, V8.Tree.Dir.mk.injEq] at hm
    rcases hm with ⟨_, _, _, rfl⟩ | ⟨_, _, _, rfl⟩
    · exact none_unambiguous K _ hb
    · exact none_unambiguous K _ hb

/-- An extracted configuration; the same one with the folders of the modules named `x` and `y` and listed in the other order, built with other random identifiers: the same files. -/
example (rnd rnd' : Nat → Text) (ord ord' : Text → List Entry → List Entry) (shuf shuf' : List Text → List Text) (hord : ∀ id l, (ord id l).Perm l) (hord' : ∀ id l, (ord' id l).Perm l)
    (hshuf : ∀ l, (shuf l).Perm l) (hshuf' : ∀ l, (shuf' l).Perm l) :
    ∃ (src : List (Place Node)) (m1 m2 : Dir) (files files' : List (Text × Node)),
      extractProduct (pE rnd) (handlers classOf xG xX xY "803".toList) .config "803".toList (zF true) (0 + 1) = some (pInfo, .mk src (.ofList [(zM, zID.name, m1), (zM, zIE.name, m2)])) ∧
      V8.Root.buildProduct (pE rnd) (fun v p => handlers classOf xG xX { xY with prod := p } v) ord shuf "f".toList (.mk src (.ofList [(zM, zID.name, m1), (zM, zIE.name, m2)])) = some (.config, files) ∧
      V8.Root.buildProduct { pE rnd with rnd := rnd' } (fun v p => handlers classOf xG xX { xY with prod := p } v) ord' shuf' "f".toList (.mk src (.ofList [(zM, ['x'], m2), (zM, ['y'], m1)])) = some (.config, files') ∧
      SameFiles .config false rnd rnd' files files' := by
  obtain ⟨src, s1, s2, e1, e2, hx⟩ := V8.Describe.zSteps (two := true) rnd
  obtain ⟨files, _, hb, _⟩ := V8.Root.C62_product metaTypes classOf xG (pE rnd) .config "803".toList (zF true) ord shuf zNm (0 + 1) pInfo _ "f".toList ['h'] ['p'] pRoot (zDH true)
    C61_classes rfl rfl rfl rfl rfl V8.Root.C62_no_extension_type V8.Root.C62_same_version hord hshuf (zDetect rnd) hx (zProduct rnd _) (zInner rnd)
  have h0 : ∀ v p, handlers classOf xG xX { xY with prod := p } v zM = some (handlerOf xG xX { xY with prod := p } v (.file zKM)) := by intro v p; unfold handlers; rw [zcM, Option.map_some]
  have hself : ∀ s : List (Place Node), Renamed (.mk s .nil) (.mk s .nil) := fun s => Renamed.mk (l := []) (l' := []) rfl (.refl _) (fun q hq => by cases hq)
  have hr : Renamed (.mk src (.ofList [(zM, zID.name, .mk (nodes s1) .nil), (zM, zIE.name, .mk (nodes s2) .nil)])) (.mk src (.ofList [(zM, ['x'], .mk (nodes s2) .nil), (zM, ['y'], .mk (nodes s1) .nil)])) :=
    Renamed.mk (l := [⟨zM, zID.name, ['y'], .mk (nodes s1) .nil, .mk (nodes s1) .nil⟩, ⟨zM, zIE.name, ['x'], .mk (nodes s2) .nil, .mk (nodes s2) .nil⟩]) rfl (.swap _ _ _) (by
      intro q hq
      rcases List.mem_cons.mp hq with rfl | hq
      · exact hself _
      · cases List.mem_singleton.mp hq
        exact hself _)
  obtain ⟨files', h1, h2⟩ := C84_product classOf xG (pE rnd) rnd' ord ord' shuf shuf' "f".toList hord hord' hshuf hshuf' _ _ _ hr (fun v p => zUnambiguous (h0 v p) e1 e2 _ _) .config files hb
  exact ⟨src, _, _, files, files', hx, hb, h1, h2⟩

/-- two modules with one name: the delivery decides -/
example : fillSlot xX.E [⟨zM, ['d'], ['n'], .str ['d']⟩, ⟨zM, ['e'], ['n'], .str ['e']⟩] (.str zM) ≠ fillSlot xX.E [⟨zM, ['e'], ['n'], .str ['e']⟩, ⟨zM, ['d'], ['n'], .str ['d']⟩] (.str zM) :=
  (C84_same_name_neg xX.E ⟨zM, ['d'], ['n'], .str ['d']⟩ ⟨zM, ['e'], ['n'], .str ['e']⟩ "0fe48980-252d-11d6-a3c7-0050bae0a776".toList rfl rfl (by decide +kernel) (by decide)).2.2

end V8.Order
