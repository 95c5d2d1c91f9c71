import Verif.Props.Pipe
import Verif.Props.PipeTable
import Verif.Props.WholeEx
import Verif.Props.RootSpec
import Verif.Props.OrgEx
/-
C68: a product file, a configuration with a module that has an include area, that meets the hypotheses.
-/
namespace V8.Pipe
open V8.Str V8.Brace V8.Enc V8.JsonText V8.Object V8.Header V8.Nested V8.Root V8.Stage V8.Whole
open V8.Tree hiding Dir
open V8.Store hiding Kind nodeOf
open V8.Code (Dir)
open V8.Zlib (Inflater storedInflater)
open V8.Misc (Cls)

/-! ### the files of a folder -/

/-- folders with files only -/
inductive Flat : V8.Tree.Dir → Prop where
  | mk {ps : List (Place Bytes)} {subs : Subs} (hs : ((subsList subs).map (fun q => (q.1, q.2.1))).Nodup) (hq : ∀ q ∈ subsList subs, Flat q.2.2) :
      Flat (.mk (nodes ps) subs)

theorem flat_one {d : V8.Tree.Dir} (h : Flat d) : ∀ p n b b', InDir d p n b → InDir d p n b' → b = b' := by
  induction h with
  | @mk ps subs hs hq ih =>
    intro p n b b' h1 h2
    generalize hd : V8.Tree.Dir.mk (nodes ps) subs = d at h1
    cases h1 with
    | own hf =>
      cases hd
      rw [inDir_own h2] at hf
      cases hf
      rfl
    | copied hf hg => cases hd; exact absurd hf (nodes_flat ps _ _)
    | @nested files subs' ty nm d p n b hm hin =>
      cases hd
      rcases inDir_nested h2 with ⟨m, g, hf⟩ | ⟨d', hm', hin'⟩
      · exact absurd hf (nodes_flat ps _ _)
      · cases key_eq hs hm hm'
        exact ih _ hm _ _ _ _ hin hin'

theorem sub_lists : ∀ L : List (Text × Text × V8.Tree.Dir), (∀ q ∈ L, ∃ l : List (Dir × Text × Bytes), ∀ p n b, InDir q.2.2 p n b → (p, n, b) ∈ l) →
    ∃ l : List (Dir × Text × Bytes), ∀ q ∈ L, ∀ p n b, InDir q.2.2 p n b → (q.1 :: q.2.1 :: p, n, b) ∈ l
  | [], _ => ⟨[], fun q hq => by cases hq⟩
  | a :: L, h => by
    obtain ⟨l, hl⟩ := sub_lists L (fun q hq => h q (List.mem_cons_of_mem _ hq))
    obtain ⟨m, hm⟩ := h a List.mem_cons_self
    refine ⟨m.map (fun i => (a.1 :: a.2.1 :: i.1, i.2)) ++ l, fun q hq p n b hin => ?_⟩
    rcases List.mem_cons.mp hq with rfl | hq
    · exact List.mem_append_left _ (List.mem_map.mpr ⟨_, hm p n b hin, rfl⟩)
    · exact List.mem_append_right _ (hl q hq p n b hin)

theorem flat_all {d : V8.Tree.Dir} (h : Flat d) : ∃ l : List (Dir × Text × Bytes), ∀ p n b, InDir d p n b → (p, n, b) ∈ l := by
  induction h with
  | @mk ps subs hs hq ih =>
    obtain ⟨l, hl⟩ := sub_lists (subsList subs) ih
    refine ⟨(written ps).map (fun i => ([], i)) ++ l, fun p n b h => ?_⟩
    generalize hd : V8.Tree.Dir.mk (nodes ps) subs = d at h
    cases h with
    | own hf =>
      cases hd
      rw [folder_nodes, Option.map_eq_some_iff] at hf
      obtain ⟨b', hb, he⟩ := hf
      cases he
      exact List.mem_append_left _ (List.mem_map.mpr ⟨_, mem_written.mpr (folder_mem' hb), rfl⟩)
    | copied hf hg => cases hd; exact absurd hf (nodes_flat ps _ _)
    | nested hm hin => cases hd; exact List.mem_append_right _ (hl _ hm _ _ _ hin)

theorem seen_one {n : Text} {b : Bytes} {c c' : V8.Org.Content JT} (h : Seen n b c) (h' : Seen n b c') : c = c' := by
  unfold Seen at h h'
  by_cases hn : V8.Org.isElem n = true
  · rw [if_pos hn] at h h'
    obtain ⟨j, e, h1, h2, rfl⟩ := h
    obtain ⟨j', e', h1', h2', rfl⟩ := h'
    rw [h1] at h1'
    cases h1'
    rw [h2] at h2'
    cases h2'
    rfl
  · rw [if_neg hn] at h h'
    rw [h, h']

theorem see_list : ∀ l : List (Dir × Text × Bytes), (∀ i ∈ l, ∃ c, Seen i.2.1 i.2.2 c) →
    ∃ src : List (V8.Org.Item JT), src.map (fun i => (i.1, i.2.1)) = l.map (fun i => (i.1, i.2.1)) ∧ ∀ p n c, (p, n, c) ∈ src ↔ ∃ b, (p, n, b) ∈ l ∧ Seen n b c
  | [], _ => ⟨[], rfl, fun p n c => ⟨fun h => (by cases h), fun h => by obtain ⟨b, h, _⟩ := h; cases h⟩⟩
  | a :: l, h => by
    obtain ⟨src, h1, h2⟩ := see_list l (fun i hi => h i (List.mem_cons_of_mem _ hi))
    obtain ⟨c, hc⟩ := h a List.mem_cons_self
    refine ⟨(a.1, a.2.1, c) :: src, by rw [List.map_cons, List.map_cons, h1], fun p n c' => ⟨fun hm => ?_, fun hm => ?_⟩⟩
    · rcases List.mem_cons.mp hm with he | hm
      · simp only [Prod.mk.injEq] at he
        obtain ⟨rfl, rfl, rfl⟩ := he
        exact ⟨a.2.2, List.mem_cons_self, hc⟩
      · obtain ⟨b, hb, hs⟩ := (h2 p n c').mp hm
        exact ⟨b, List.mem_cons_of_mem _ hb, hs⟩
    · obtain ⟨b, hb, hs⟩ := hm
      rcases List.mem_cons.mp hb with rfl | hb
      · rw [seen_one hs hc]
        exact List.mem_cons_self
      · exact List.mem_cons_of_mem _ ((h2 p n c').mpr ⟨b, hb, hs⟩)

open Classical in
/-- the files of such a folder can be listed, each of them once -/
theorem flat_found {d : V8.Tree.Dir} (h : Flat d) (hel : ∀ p m b, InDir d p m b → V8.Org.isElem m = true → ElemFile b) :
    ∃ src, Found d src ∧ (src.map (fun i => (i.1, i.2.1))).Nodup := by
  obtain ⟨l, hl⟩ := flat_all h
  let l' := (l.filter (fun i => decide (InDir d i.1 i.2.1 i.2.2))).dedup
  have hl' : ∀ i, i ∈ l' ↔ InDir d i.1 i.2.1 i.2.2 := by
    intro i
    show i ∈ List.dedup _ ↔ _
    rw [List.mem_dedup, List.mem_filter, decide_eq_true_eq]
    exact ⟨fun h => h.2, fun h => ⟨hl _ _ _ h, h⟩⟩
  obtain ⟨src, h1, h2⟩ := see_list l' (fun i hi => seen_all (hel _ _ _ ((hl' i).mp hi)))
  refine ⟨src, fun p n c => ?_, ?_⟩
  · rw [h2]
    exact ⟨fun ⟨b, hb, hs⟩ => ⟨b, (hl' (p, n, b)).mp hb, hs⟩, fun ⟨b, hb, hs⟩ => ⟨b, (hl' (p, n, b)).mpr hb, hs⟩⟩
  · rw [h1, List.Nodup, List.pairwise_map]
    have hnd : l'.Nodup := List.nodup_dedup _
    refine List.Pairwise.imp_of_mem ?_ hnd
    intro a b ha hb hne he
    simp only [Prod.mk.injEq] at he
    obtain ⟨a1, a2, a3⟩ := a
    obtain ⟨b1, b2, b3⟩ := b
    simp only at he
    obtain ⟨rfl, rfl⟩ := he
    have e : a3 = b3 := flat_one h _ _ _ _ ((hl' (a1, a2, a3)).mp ha) ((hl' (a1, a2, b3)).mp hb)
    exact hne (by rw [e])

/-! ### the modules -/

theorem codes_from {win cd : Bool} {k : Text} {F : Text → Option Store.Node} {u : Text} : ∀ {cs : List (Text × Text)} {r : List (Place JT) × List (Place Bytes)},
    codesOut win cd k F u cs = some r → ∀ n b, (n, some b) ∈ r.2 → V8.Org.isCode n = true →
      ∃ c ∈ cs, ∃ st, storedOf (F (dot u c.2)) = some st ∧ (V8.Module.extractModule win cd st).bsl = some b
  | [], r, h, n, b, hm, hn => by rw [codesOut] at h; cases h; cases hm
  | a :: cs, r, h, n, b, hm, hn => by
    rw [codesOut] at h
    simp only [Option.bind_eq_some_iff, Option.map_eq_some_iff] at h
    obtain ⟨q, hq, s, hs, rfl⟩ := h
    rcases List.mem_append.mp hm with hm | hm
    · unfold codeOut at hq
      rw [Option.map_eq_some_iff] at hq
      obtain ⟨st, hst, rfl⟩ := hq
      simp only [List.mem_cons, Prod.mk.injEq, List.not_mem_nil, or_false] at hm
      rcases hm with ⟨rfl, hb⟩ | ⟨rfl, hb⟩
      · exact ⟨a, List.mem_cons_self, st, hst, hb.symm⟩
      · exfalso
        unfold V8.Org.isCode at hn
        rw [ends_iff] at hn
        unfold binName at hn
        obtain ⟨t, ht⟩ := hn
        have e : dot (dot k a.1) "bin".toList = dot k a.1 ++ ".bin".toList := rfl
        rw [e] at ht
        exact absurd (List.append_inj_right' ht rfl) (by decide)
    · obtain ⟨c, hc, h1⟩ := codes_from hs n b hm hn
      exact ⟨c, List.mem_cons_of_mem _ hc, h1⟩

/-- the modules among the source files of an object -/
theorem parts_from {win : Bool} {k : Store.Kind} {F : Text → Option Store.Node} {u : Text} {p : List (Place JT) × List (Place Bytes)}
    (h : Store.partsOut win k F u = some p) (h1 : k.help = none) (h2 : k.blobs = []) (n : Text) (b : Bytes) (hm : (n, some b) ∈ p.2) (hn : V8.Org.isCode n = true) :
    ∃ c ∈ k.codes, ∃ st, storedOf (F (dot u c.2)) = some st ∧ (V8.Module.extractModule win false st).bsl = some b := by
  unfold Store.partsOut at h
  rw [h1, h2, helpOut, blobsOut] at h
  simp only [Option.bind_some, Option.bind_eq_some_iff, Option.map_eq_some_iff] at h
  obtain ⟨r, hr, i, _, rfl⟩ := h
  exact codes_from hr n b hm hn

theorem json_plain (k : Text) : V8.Org.isCode (idName k) = false ∧ V8.Org.isCode (objName k) = false := by
  have h : ∀ t : Text, V8.Org.isCode (t ++ "json".toList) = false := by
    intro t
    cases hc : V8.Org.isCode (t ++ "json".toList) with
    | false => rfl
    | true =>
      unfold V8.Org.isCode at hc
      rw [ends_iff] at hc
      obtain ⟨x, hx⟩ := hc
      exact absurd (List.append_inj_right' hx rfl) (by decide)
  refine ⟨?_, ?_⟩
  · have := h (dot k "id.".toList)
    unfold dot at this
    rw [List.append_assoc] at this
    exact this
  · have := h (k ++ ['.'])
    rw [List.append_assoc] at this
    exact this

theorem tail_from {ps : List (Place Bytes)} {k : Text} {a b : Bytes} {n : Text} {c : Bytes} (hm : (n, some c) ∈ ps ++ [(idName k, some a), (objName k, some b)])
    (hn : V8.Org.isCode n = true) : (n, some c) ∈ ps := by
  rcases List.mem_append.mp hm with hm | hm
  · exact hm
  · simp only [List.mem_cons, Prod.mk.injEq, List.not_mem_nil, or_false] at hm
    rcases hm with ⟨rfl, _⟩ | ⟨rfl, _⟩
    · rw [(json_plain k).1] at hn; cases hn
    · rw [(json_plain k).2] at hn; cases hn

theorem file_from {x : Ext} {k : Store.Kind} {ver : Option Text} {F : Text → Option Store.Node} {u : Text} {info : Info} {os : List Obj}
    {src : List (Place Bytes)} (hx : extractAll x k ver F u = some (info, os, src)) (h1 : k.help = none) (h2 : k.blobs = []) (n : Text) (b : Bytes)
    (hm : (n, some b) ∈ src) (hn : V8.Org.isCode n = true) :
    ∃ i, ∃ c ∈ k.codes, ∃ st, storedOf (F (dot i c.2)) = some st ∧ (V8.Module.extractModule x.win false st).bsl = some b := by
  unfold extractAll at hx
  cases hF : F u with
  | none => rw [hF] at hx; cases hx
  | some nd =>
    rw [hF] at hx
    cases nd with
    | dir f => cases hx
    | file b =>
      simp only [Option.bind_eq_some_iff, Option.map_eq_some_iff] at hx
      obtain ⟨r, hr, p, hpo, ⟨qi, qo, qs⟩, hq, he⟩ := hx
      simp only [Prod.mk.injEq] at he
      obtain ⟨_, rfl, rfl⟩ := he
      exact ⟨_, parts_from hpo h1 h2 n _ (tail_from hm hn) hn⟩

theorem inner_from {x : Ext} {k : Store.Kind} {F : Text → Option Store.Node} {v : Val} {info : Info} {src : List (Place Bytes)}
    (hx : innerAll x k F v = some (info, src)) (h1 : k.help = none) (h2 : k.blobs = []) (n : Text) (b : Bytes) (hm : (n, some b) ∈ src)
    (hn : V8.Org.isCode n = true) : ∃ i, ∃ c ∈ k.codes, ∃ st, storedOf (F (dot i c.2)) = some st ∧ (V8.Module.extractModule x.win false st).bsl = some b := by
  unfold innerAll at hx
  simp only [Option.bind_eq_some_iff, Option.map_eq_some_iff] at hx
  obtain ⟨r, hr, p, hpo, q, hq, he⟩ := hx
  simp only [Prod.mk.injEq] at he
  obtain ⟨_, rfl⟩ := he
  exact ⟨_, parts_from hpo h1 h2 n b (tail_from hm hn) hn⟩

theorem root_from {e : V8.Root.Env} {F : Text → Option Store.Node} {info : Info} {os : List Obj} {src : List (Place Bytes)}
    (h : rootOut e .config "803".toList F = some (info, os, src)) (n : Text) (b : Bytes) (hm : (n, some b) ∈ src) (hn : V8.Org.isCode n = true) :
    ∃ i, ∃ c ∈ config.codes, ∃ st, storedOf (F (dot i c.2)) = some st ∧ (V8.Module.extractModule e.x.win false st).bsl = some b := by
  obtain ⟨root, fu, v, hd, h', h1, b', paths, t, _, _, _, _, _, _, hb, _, _, rfl⟩ := rootOut_some h
  obtain ⟨front, other, compat, vb, parts, h1, h2, h3, h4, h5, rfl⟩ := besideOut_some hb
  cases h4
  rw [show kindOf Cls.config = config from rfl, show directives .config "803".toList = false by decide +kernel] at h5
  unfold V8.Root.partsOut at h5
  simp only [Option.bind_eq_some_iff, Option.map_eq_some_iff] at h5
  obtain ⟨a, ha, b2, hb2, f, hf, c, hc, i, hi, rfl⟩ := h5
  have hx : ∀ m ∈ (a.2 ++ b2.2 ++ f).map (·.1), V8.Org.isCode m = false := by
    rw [List.map_append, List.map_append, (helpOut_shape ha).2.1, (imagesOut_shape hb2).2.1, filesOut_shape hf]
    decide +kernel
  simp only [List.append_nil] at hm
  rcases List.mem_append.mp hm with hm | hm
  · rcases List.mem_append.mp hm with hm | hm
    · rw [hx n (List.mem_map.mpr ⟨_, hm, rfl⟩)] at hn
      cases hn
    · exact ⟨_, codes_from hc n b hm hn⟩
  · simp only [List.mem_cons, Prod.mk.injEq, List.not_mem_nil, or_false] at hm
    rw [hm.1, (json_plain _).2] at hn
    cases hn

def cText : Text := "Процедура Открыть()\n".toList
def pText : Text := "#Область include_lib_util\nПерем А;\n#КонецОбласти\n".toList

/-- the modules of the product of the example -/
theorem xF_dot (i : Text) (c : Char) (hc : c ∈ ['0', '2', '5', '6', '7']) :
    xF (dot i [c]) = none ∨ c = '2' ∧ xF (dot i [c]) = some (.file (utf8 cText)) ∨ c = '6' ∧ xF (dot i [c]) = some (.file (utf8 pText)) := by
  have hd : '.' ∈ dot i [c] := List.mem_append_right _ List.mem_cons_self
  have hne : ∀ t : Text, '.' ∉ t → dot i [c] ≠ t := fun t ht he => ht (he ▸ hd)
  have h2 : ∀ (a : Text) (b : Char), dot i [c] = dot a [b] → c = b := by
    intro a b he
    have : ['.', c] = ['.', b] := List.append_inj_right' he rfl
    injection this with _ this
    injection this
  have h3 : dot i [c] ≠ dot ['a'] "77".toList := by
    intro he
    have : ['.', c] = ['7', '7'] := List.append_inj_right' (s₁ := i) (s₂ := ['a', '.']) he rfl
    injection this with h _
    exact absurd h (by decide)
  unfold xF
  rw [if_neg (hne _ (by decide)), if_neg (hne _ (by decide))]
  by_cases e1 : dot i [c] = dot ['c'] "2".toList
  · rw [if_pos e1]
    exact .inr (.inl ⟨h2 _ _ e1, rfl⟩)
  rw [if_neg e1, if_neg h3]
  unfold pF
  rw [if_neg (hne _ (by decide)), if_neg (hne _ (by decide)), if_neg (hne _ (by decide)), if_neg (hne _ (by decide))]
  by_cases e2 : dot i [c] = dot ['p'] "6".toList
  · rw [if_pos e2]
    exact .inr (.inr ⟨h2 _ _ e2, rfl⟩)
  · rw [if_neg e2]
    exact .inl rfl

theorem xModule {i : Text} {c : Text × Text} {st : V8.Module.Stored} {b : Bytes} (hc : ∃ d ∈ ['0', '2', '5', '6', '7'], c.2 = [d])
    (h : storedOf (xF (dot i c.2)) = some st) (hb : (V8.Module.extractModule true false st).bsl = some b) :
    c.2 = ['2'] ∧ b = utf8 (osWrite true cText) ∨ c.2 = ['6'] ∧ b = utf8 (osWrite true pText) := by
  obtain ⟨d, hd, e⟩ := hc
  rw [e] at h ⊢
  rcases xF_dot i d hd with h1 | ⟨rfl, h1⟩ | ⟨rfl, h1⟩
  · rw [h1] at h
    cases h
    cases hb
  · rw [h1] at h
    cases h
    rw [extractModule_utf8 true false cText (by decide)] at hb
    cases hb
    exact .inl ⟨rfl, rfl⟩
  · rw [h1] at h
    cases h
    rw [extractModule_utf8 true false pText (by decide)] at hb
    cases hb
    exact .inr ⟨rfl, rfl⟩

/-! ### the folder of the sources -/

def below (ty nm : Text) (s : List (Place Bytes)) (r : List (Text × Text × V8.Tree.Dir)) : List (Text × Text × V8.Tree.Dir) := [(ty, nm, .mk (nodes s) (.ofList r))]

theorem xTree' (con : Option Text) : ∃ s1 s2 s3 os1 os2, extractAll xX xKS (some "803".toList) xF ['a'] = some (xIS, os1, s1) ∧
    extractAll xX xKT (some "803".toList) xF ['b'] = some (xIT, os2, s2) ∧ innerAll xX xKC xF (xCmd xHC) = some (xIC, s3) ∧
    extractTree (handlers classOf xG xX xY "803".toList) xF (0 + 1 + 1 + 1) con xS (.str ['a']) =
      some (xIS, .mk (nodes s1) (.ofList (below xT xIT.name s2 (below xC xIC.name s3 [])))) := by
  obtain ⟨s1, e1⟩ := xeS
  obtain ⟨s2, e2⟩ := xeT
  obtain ⟨s3, e3⟩ := xeC
  have k1 : handlers classOf xG xX xY "803".toList xS = some (handlerOf xG xX xY "803".toList (.file xKS)) := by unfold handlers; rw [xcS, Option.map_some]
  have k2 : handlers classOf xG xX xY "803".toList xT = some (handlerOf xG xX xY "803".toList (.file xKT)) := by unfold handlers; rw [xcT, Option.map_some]
  have k3 : handlers classOf xG xX xY "803".toList xC = some (handlerOf xG xX xY "803".toList (.inner xKC)) := by unfold handlers; rw [xcC, Option.map_some]
  have o1 : (handlerOf xG xX xY "803".toList (.file xKS)).out con xF (.str ['a']) = some (xIS, [⟨xT, ['b'], .str ['b']⟩], nodes s1) := by rw [file_out, e1, Option.map_some]
  have o2 : ∀ con, (handlerOf xG xX xY "803".toList (.file xKT)).out con xF (.str ['b']) = some (xIT, [⟨xC, ['c'], xCmd xHC⟩], nodes s2) := by intro con; rw [file_out, e2, Option.map_some]
  have o3 : ∀ con, (handlerOf xG xX xY "803".toList (.inner xKC)).out con xF (xCmd xHC) = some (xIC, [], nodes s3) := by
    intro con
    rw [xCmd, inner_out, ← xCmd, e3, Option.map_some]
  have t3 : ∀ con, extractTree (handlers classOf xG xX xY "803".toList) xF (0 + 1) con xC (xCmd xHC) = some (xIC, .mk (nodes s3) (.ofList [])) := fun con =>
    tree_step k3 (o3 con) (by rw [extractKids]) .nil
  have t2 := fun con => tree_step (F := xF) k2 (o2 con) (one_kid (o := ⟨xC, ['c'], xCmd xHC⟩) (t3 _)) (one_nodup _)
  have t1 := tree_step (F := xF) k1 o1 (one_kid (o := ⟨xT, ['b'], .str ['b']⟩) (t2 _)) (one_nodup _)
  exact ⟨s1, s2, s3, _, _, e1, e2, e3, t1⟩

def xTop (src s1 s2 s3 : List (Place Bytes)) : V8.Tree.Dir :=
  .mk (nodes src) (.ofList (below xS xIS.name s1 (below xT xIT.name s2 (below xC xIC.name s3 []))))

theorem pExtract' (rnd : Nat → Text) : ∃ src s1 s2 s3 os os1 os2, rootOut (pE rnd) .config "803".toList xF = some (pInfo, os, src) ∧
    extractAll xX xKS (some "803".toList) xF ['a'] = some (xIS, os1, s1) ∧ extractAll xX xKT (some "803".toList) xF ['b'] = some (xIT, os2, s2) ∧
    innerAll xX xKC xF (xCmd xHC) = some (xIC, s3) ∧
    extractProduct (pE rnd) (handlers classOf xG xX xY "803".toList) .config "803".toList xF (0 + 1 + 1 + 1) = some (pInfo, xTop src s1 s2 s3) := by
  obtain ⟨src, h1⟩ := pRootOut rnd
  obtain ⟨s1, s2, s3, os1, os2, e1, e2, e3, h2⟩ := xTree' (conOut .config xF)
  refine ⟨src, s1, s2, s3, _, os1, os2, h1, e1, e2, e3, ?_⟩
  unfold extractProduct
  rw [h1, Option.bind_some]
  simp only
  rw [one_kid (o := ⟨xS, ['a'], .str ['a']⟩) h2, Option.bind_some, if_pos (one_nodup _)]
  rfl

theorem flat_below {ty nm : Text} {s : List (Place Bytes)} {r : List (Text × Text × V8.Tree.Dir)} (hn : (r.map (fun q => (q.1, q.2.1))).Nodup)
    (h : ∀ q ∈ r, Flat q.2.2) : ∀ q ∈ below ty nm s r, Flat q.2.2 := by
  intro q hq
  rw [below, List.mem_singleton] at hq
  subst hq
  exact .mk (by rw [subs_ofList]; exact hn) (by rw [subs_ofList]; exact h)

theorem below_nodup (ty nm : Text) (s : List (Place Bytes)) (r : List (Text × Text × V8.Tree.Dir)) : ((below ty nm s r).map (fun q => (q.1, q.2.1))).Nodup := one_nodup _

theorem flat_top (src s1 s2 s3 : List (Place Bytes)) : Flat (xTop src s1 s2 s3) := by
  unfold xTop
  exact .mk (by rw [subs_ofList]; exact below_nodup _ _ _ _) (by
    rw [subs_ofList]
    exact flat_below (below_nodup _ _ _ _) (flat_below (below_nodup _ _ _ _) (flat_below .nil (fun q hq => by cases hq))))

theorem in_mk {s : List (Place Bytes)} {r : List (Text × Text × V8.Tree.Dir)} {p : Dir} {n : Text} {b : Bytes} (h : InDir (.mk (nodes s) (.ofList r)) p n b) :
    p = [] ∧ (n, some b) ∈ s ∨ ∃ ty nm d p', p = ty :: nm :: p' ∧ (ty, nm, d) ∈ r ∧ InDir d p' n b := by
  generalize hd : V8.Tree.Dir.mk (nodes s) (.ofList r) = d at h
  cases h with
  | own hf =>
    cases hd
    rw [folder_nodes, Option.map_eq_some_iff] at hf
    obtain ⟨b', hb, he⟩ := hf
    cases he
    exact .inl ⟨rfl, folder_mem' hb⟩
  | copied hf hg => cases hd; exact absurd hf (nodes_flat s _ _)
  | nested hm hin =>
    cases hd
    rw [subs_ofList] at hm
    exact .inr ⟨_, _, _, _, rfl, hm, hin⟩

theorem in_top {src s1 s2 s3 : List (Place Bytes)} {p : Dir} {n : Text} {b : Bytes} (h : InDir (xTop src s1 s2 s3) p n b) :
    p = [] ∧ (n, some b) ∈ src ∨ p ≠ [] ∧ ((n, some b) ∈ s1 ∨ (n, some b) ∈ s2 ∨ (n, some b) ∈ s3) := by
  rcases in_mk h with h | ⟨_, _, _, p1, rfl, hm, h⟩
  · exact .inl h
  refine .inr ⟨List.cons_ne_nil _ _, ?_⟩
  rw [below, List.mem_singleton] at hm
  simp only [Prod.mk.injEq] at hm
  obtain ⟨_, _, rfl⟩ := hm
  rcases in_mk h with h | ⟨_, _, _, p2, rfl, hm, h⟩
  · exact .inl h.2
  rw [below, List.mem_singleton] at hm
  simp only [Prod.mk.injEq] at hm
  obtain ⟨_, _, rfl⟩ := hm
  rcases in_mk h with h | ⟨_, _, _, p2, rfl, hm, h⟩
  · exact .inr (.inl h.2)
  rw [below, List.mem_singleton] at hm
  simp only [Prod.mk.injEq] at hm
  obtain ⟨_, _, rfl⟩ := hm
  rcases in_mk h with h | ⟨_, _, _, p2, rfl, hm, h⟩
  · exact .inr (.inr h.2)
  · cases hm

/-! ### the organizer -/

/-- with a version (`deep`) or without -/
def xSys (deep : Bool) : V8.Org.Sys := ⟨["p".toList, "src".toList], fun _ => none, true, deep⟩

def xM (p : Dir) (_ : Text) : List V8.Code.Node :=
  if p = [] then [.area "#Область include_lib_util\n".toList [.line "Перем А;\n".toList] "#КонецОбласти\n".toList] else [.line cText]

theorem xKind : V8.Code.kind "#Область include_lib_util\n".toList = .area .incl "lib_util".toList none := by decide +kernel

theorem xOk (deep : Bool) (p : Dir) (n : Text) : V8.Org.ModuleOk (xSys deep) (xM p n) := by
  unfold xM
  by_cases h : p = []
  · rw [if_pos h]
    have hn : (V8.Code.nodesAreas [.area "#Область include_lib_util\n".toList [.line "Перем А;\n".toList] "#КонецОбласти\n".toList]).map (·.1) = ["lib_util".toList] := by
      simp only [V8.Code.nodesAreas, V8.Code.Node.areas, xKind, List.append_nil, List.map_cons, List.map_nil]
    constructor
    · simp only [V8.Code.WFs, V8.Code.WF, and_true]
      exact ⟨by decide +kernel, V8.Code.not_infix (by decide +kernel), V8.Code.not_infix (by decide +kernel), _, _, _, xKind, by decide, .inr (by cases deep <;> decide +kernel),
        by decide +kernel, .inl (V8.Code.not_infix (by decide +kernel))⟩
    · unfold V8.Code.ProperLines; decide +kernel
    · rw [hn]; decide
    · decide +kernel
    · decide +kernel
  · rw [if_neg h]
    constructor
    · simp only [V8.Code.WFs, V8.Code.WF, and_true]
      exact ⟨by decide +kernel, .inl (V8.Code.not_infix (by decide +kernel))⟩
    · unfold V8.Code.ProperLines; decide +kernel
    · simp only [V8.Code.nodesAreas, V8.Code.Node.areas, List.append_nil, List.map_nil]; decide
    · decide +kernel
    · decide +kernel

/-- the file of the area: without a version beside the folder of the sources, with one a folder higher -/
def xArea (deep : Bool) : V8.Org.File × V8.Code.AreaType × Text :=
  ((if deep then ["lib".toList] else ["p".toList, "lib".toList], "util.bsl".toList), .incl, "Перем А;\n".toList)

theorem xArea_eq (deep : Bool) : (V8.Code.nodesAreas [.area "#Область include_lib_util\n".toList [.line "Перем А;\n".toList] "#КонецОбласти\n".toList]).map
    (fun p => (V8.Code.parse (xSys deep).env p.1 ((xSys deep).src ++ []), p.2.1, p.2.2.flatten)) = [xArea deep] := by
  simp only [V8.Code.nodesAreas, V8.Code.Node.areas, xKind, List.append_nil, List.map_cons, List.map_nil]
  cases deep <;> decide +kernel

theorem xAreas (deep : Bool) (src : List (V8.Org.Item JT)) : ∀ a ∈ V8.Org.codeAreas (xSys deep) xM src, a = xArea deep := by
  intro a ha
  unfold V8.Org.codeAreas at ha
  obtain ⟨i, _, hi⟩ := List.mem_flatMap.mp ha
  unfold xM at hi
  by_cases h : i.1 = []
  · rw [if_pos h, h] at hi
    rw [xArea_eq deep] at hi
    exact List.mem_singleton.mp hi
  · rw [if_neg h] at hi
    simp only [V8.Code.nodesAreas, V8.Code.Node.areas, List.append_nil, List.map_nil] at hi
    cases hi

theorem xDirs : DirsOk xF := by
  intro u g h
  exfalso
  have key : ∀ {c : Prop} [Decidable c] {b : Bytes} {o : Option Store.Node}, (if c then some (.file b) else o) = some (.dir g) → o = some (.dir g) := by
    intro c _ b o h
    by_cases hc : c
    · rw [if_pos hc] at h; cases h
    · rw [if_neg hc] at h; exact h
  unfold xF at h
  replace h := key (key (key (key h)))
  unfold pF at h
  replace h := key (key (key (key (key h))))
  cases h

theorem config_codes : (∀ q ∈ config.codes, ∃ d ∈ ['0', '2', '5', '6', '7'], q.2 = [d]) ∧ ∀ q ∈ config.codes, q.2 ≠ ['2'] := by decide +kernel

theorem pText_eq (n : Text) : V8.Code.text (xM [] n) = pText := by
  rw [xM, if_pos rfl]
  decide +kernel

theorem cText_eq (p : Dir) (hp : p ≠ []) (n : Text) : V8.Code.text (xM p n) = cText := by
  rw [xM, if_neg hp]
  decide +kernel

theorem xReady (rnd : Nat → Text) : ∃ dir src, (∃ fs s1 s2 s3 os os1 os2, rootOut (pE rnd) .config "803".toList xF = some (pInfo, os, fs) ∧
      extractAll xX xKS (some "803".toList) xF ['a'] = some (xIS, os1, s1) ∧ extractAll xX xKT (some "803".toList) xF ['b'] = some (xIT, os2, s2) ∧
      innerAll xX xKC xF (xCmd xHC) = some (xIC, s3) ∧ dir = xTop fs s1 s2 s3) ∧
    extractProduct (pE rnd) (handlers classOf xG xX xY "803".toList) .config "803".toList xF (0 + 1 + 1 + 1) = some (pInfo, dir) ∧
    Found dir src ∧ (∃ i ∈ src, i.1 = [] ∧ V8.Org.isCode i.2.1 = true ∧ i.2.1 = "Configuration.app.bsl".toList) ∧ (∀ i ∈ src, V8.Org.isElem i.2.1 = false) ∧
      ∀ (deep : Bool) (w : V8.Org.World JT) (E : Dir → Text → V8.Areas.Elems JT), V8.Org.Ready namesOf (xSys deep) w src xM E := by
  obtain ⟨fs, s1, s2, s3, os, os1, os2, h0, h1, h2, h3, hx⟩ := pExtract' rnd
  have hel := root_elems (e := pE rnd) C61_classes C68_names xDirs hx
  have hno : ∀ p n b, InDir (xTop fs s1 s2 s3) p n b → V8.Org.isElem n = false := by
    intro p n b h
    rcases in_top h with ⟨_, h⟩ | ⟨_, h | h | h⟩
    · exact root_plain .config n (by rw [← root_src h0]; exact List.mem_map.mpr ⟨_, h, rfl⟩)
    · exact C68_names.file xS _ .none xKS xcS rfl n (by rw [← (extractAll_src h1).1]; exact List.mem_map.mpr ⟨_, h, rfl⟩)
    · exact C68_names.file xT _ .none xKT xcT rfl n (by rw [← (extractAll_src h2).1]; exact List.mem_map.mpr ⟨_, h, rfl⟩)
    · exact C68_names.inner xC xKC xcC n (by rw [← innerAll_src h3]; exact List.mem_map.mpr ⟨_, h, rfl⟩)
  obtain ⟨src, hs, hn⟩ := flat_found (flat_top fs s1 s2 s3) hel
  have hno' : ∀ i ∈ src, V8.Org.isElem i.2.1 = false := by
    rintro ⟨p, n, c⟩ hi
    obtain ⟨b, hb, _⟩ := (hs p n c).mp hi
    exact hno p n b hb
  refine ⟨_, src, ⟨fs, s1, s2, s3, os, os1, os2, h0, h1, h2, h3, rfl⟩, hx, hs, ?_, hno', fun deep w E => ?_⟩
  · have hmem := (C62_module_source (pE rnd) .config "803".toList xF pInfo _ fs h0 "app".toList "6".toList _ (by decide) pF5 (by decide)).1 (.inr ⟨by decide, by decide⟩)
    have hin : InDir (xTop fs s1 s2 s3) [] (bslName (kindOf .config).name "app".toList) _ := .own (by rw [folder_nodes, hmem]; rfl)
    obtain ⟨c, hc⟩ := seen_all (hel _ _ _ hin)
    exact ⟨([], bslName (kindOf .config).name "app".toList, c), (hs _ _ _).mpr ⟨_, hin, hc⟩, rfl, show V8.Org.isCode (bslName (kindOf .config).name "app".toList) = true by decide, show bslName (kindOf .config).name "app".toList = "Configuration.app.bsl".toList by decide⟩
  · have hmod : ∀ i ∈ src, V8.Org.isCode i.2.1 = true → i.2.2 = V8.Org.txt (xSys deep) (V8.Code.text (xM i.1 i.2.1)) := by
      rintro ⟨p, n, c⟩ hi hcode
      obtain ⟨b, hb, hseen⟩ := (hs p n c).mp hi
      unfold Seen at hseen
      rw [if_neg (by rw [hno p n b hb]; exact fun h => by cases h)] at hseen
      simp only at hcode ⊢
      rw [hseen]
      unfold V8.Org.txt
      rcases in_top hb with ⟨rfl, h⟩ | ⟨hp, h⟩
      · obtain ⟨i, q, hq, st, hst, hbsl⟩ := root_from h0 n b h hcode
        rcases xModule (config_codes.1 q hq) hst hbsl with ⟨h2, _⟩ | ⟨_, hb⟩
        · exact absurd h2 (config_codes.2 q hq)
        · rw [hb, pText_eq]
          rfl
      · have hb' : b = utf8 (osWrite true cText) := by
          rcases h with h | h | h
          · obtain ⟨i, q, hq, st, hst, hbsl⟩ := file_from h1 rfl rfl n b h hcode
            rw [List.mem_singleton.mp (show q ∈ [("obj".toList, "0".toList)] from hq)] at hst
            rcases xModule (c := ("obj".toList, "0".toList)) ⟨'0', by decide, rfl⟩ hst hbsl with ⟨h, _⟩ | ⟨h, _⟩ <;> exact absurd h (by decide)
          · obtain ⟨i, q, hq, st, hst, hbsl⟩ := file_from h2 rfl rfl n b h hcode
            rw [List.mem_singleton.mp (show q ∈ [("obj".toList, "0".toList)] from hq)] at hst
            rcases xModule (c := ("obj".toList, "0".toList)) ⟨'0', by decide, rfl⟩ hst hbsl with ⟨h, _⟩ | ⟨h, _⟩ <;> exact absurd h (by decide)
          · obtain ⟨i, q, hq, st, hst, hbsl⟩ := inner_from h3 rfl rfl n b h hcode
            rw [List.mem_singleton.mp (show q ∈ [("obj".toList, "2".toList)] from hq)] at hst
            rcases xModule (c := ("obj".toList, "2".toList)) ⟨'2', by decide, rfl⟩ hst hbsl with ⟨_, h⟩ | ⟨h, _⟩
            · exact h
            · exact absurd h (by decide)
        rw [hb', cText_eq p hp]
        rfl
    have hE : V8.Org.elemAreas namesOf (xSys deep) E src = [] := by
      unfold V8.Org.elemAreas
      rw [List.filter_eq_nil_iff.mpr (fun i hi => by rw [hno' i hi]; exact fun h => by cases h)]
      rfl
    constructor
    · exact hn
    · exact fun i hi hc => ⟨hmod i hi hc, xOk _ _ _⟩
    · intro i hi hc
      rw [hno' i hi] at hc
      cases hc
    · intro a ha
      rw [xAreas deep src a ha]
      show ¬ ["p".toList, "src".toList] <+: (xArea deep).1.1
      cases deep <;> decide +kernel
    · rw [hE]
      intro a ha
      cases ha
    · intro a ha b hb _
      rw [xAreas deep src a ha, xAreas deep src b hb]
    · rw [hE]
      intro a ha
      cases ha
    · intro a ha ht
      rw [xAreas deep src a ha] at ht
      cases ht

/-- a product file is extracted, laid out and built: the module of the configuration, whose area was in a file of its own in between, is in the new file as it was -/
example (rnd : Nat → Text) (ord : Text → List Nested.Entry → List Nested.Entry) (shuf : List Text → List Text) (hord : ∀ id l, (ord id l).Perm l)
    (hshuf : ∀ l, (shuf l).Perm l) (w : V8.Org.World JT) : ∃ old L dir src w' packed D dir' files, unwrap storedInflater (2 ^ 31) 2 1 old = .ok [L] ∧
      extractProduct (pE rnd) (handlers classOf xG xX xY "803".toList) .config "803".toList (view L) (0 + 1 + 1 + 1) = some (pInfo, dir) ∧ Found dir src ∧
      V8.Org.Unpacked namesOf (xSys false) w src w' ∧ w' (["p".toList, "lib".toList], "util.bsl".toList) = some (V8.Org.txt (xSys false) "Перем А;\n".toList) ∧
      V8.Org.pack namesOf (xSys false) w' 5 (src.map (fun i => (i.1, i.2.1))) = some packed ∧ Saved true packed D ∧ Shows D [] dir' ∧
      buildProduct (pE rnd) (fun v p => handlers classOf xG xX { xY with prod := p } v) ord shuf "f".toList dir' = some (.config, files) ∧ (∃ l, OnDisk l files) ∧
      ∀ l, OnDisk l files → ∀ new, wrap xDisk l = .ok new → new.length < 2 ^ 31 → ∃ out, unwrap storedInflater (2 ^ 31) 2 1 new = .ok [out] ∧
        view out (dot ['p'] "6".toList) = some (.file (utf8 pText)) := by
  obtain ⟨old, L, h1, h2, h3⟩ := wOld
  obtain ⟨dir, src, _, hx, hsrc, hin, hno, hready⟩ := xReady rnd
  obtain ⟨w', hun, hlist⟩ := V8.Org.C66_runs namesOf (xSys false) w src xM (fun _ _ => ⟨[], fun _ => none, []⟩) (hready false w _) (fun i hi hc => by
    rw [hno i hi] at hc
    cases hc)
  rw [← h3] at hx
  obtain ⟨_, packed, g1, ⟨D, hD⟩, g2⟩ := C68_extract_build metaTypes classOf xG (pE rnd) .config "803".toList ord shuf xNm _ pInfo dir "f".toList ['h'] ['p'] pRoot pDH
    C61_classes C68_names rfl rfl rfl rfl rfl C62_no_extension_type C62_same_version hord hshuf storedInflater xDisk tiny_ok xTimes old L (2 ^ 31) 2 1 h1 h2
    (by rw [h3]; exact xDirs)
    (by rw [h3]; exact pDetect rnd) hx (by rw [h3]; exact pProduct rnd _) (by rw [h3]; exact pInner rnd)
    (xSys false) w w' src hsrc xM (fun _ _ => ⟨[], fun _ => none, []⟩) (hready false w _) hun _ hlist 5 (fun i _ _ => by
      unfold xM
      by_cases h : i.1 = []
      · rw [if_pos h]; decide
      · rw [if_neg h]; decide)
  obtain ⟨⟨dir', hs⟩, g3⟩ := g2 D hD
  obtain ⟨files, f1, f2, f3⟩ := g3 dir' hs
  obtain ⟨i, hi, hi1, hi2, _⟩ := hin
  refine ⟨old, L, dir, src, w', packed, D, dir', files, h1, hx, hsrc, hun, ?_, g1, hD, hs, f1, f2, fun l hl new hnew hlen => ?_⟩
  · refine (V8.Org.laid (hready false w (fun _ _ => ⟨[], fun _ => none, []⟩)) hun).area (xArea false) ?_
    unfold V8.Org.codeAreas
    refine List.mem_flatMap.mpr ⟨i, List.mem_filter.mpr ⟨hi, hi2⟩, ?_⟩
    rw [xM, if_pos hi1, hi1]
    rw [xArea_eq false]
    exact List.mem_cons_self
  · obtain ⟨out, o1, o2, _⟩ := (f3 l hl).2 new hnew hlen (2 ^ 31) 2 1 (Nat.le_refl _) (Nat.le_refl _)
    refine ⟨out, o1, ?_⟩
    rw [(o2 _ (by decide) (by decide)).1 (.inl (by decide)), h3]
    exact pF5

end V8.Pipe
