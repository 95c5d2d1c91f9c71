import Verif.FormJson
import Verif.Props.Object
/-
What is read from `<form>.elem.json` is what was written there.
-/
namespace V8.FormJson
open V8.Brace V8.JsonText V8.Object
open V8.Store hiding Kind
open V8.Form (Kind PropRec Rec Child idx nameAt)

theorem allOf_map {α β : Type} (f : β → Option α) (g : α → β) (l : List α) (h : ∀ a ∈ l, f (g a) = some a) : allOf f (l.map g) = some l := by
  induction l with
  | nil => rfl
  | cons a r ih =>
    rw [List.map_cons, allOf, h a (List.mem_cons_self ..), ih (fun b hb => h b (List.mem_cons_of_mem _ hb))]
    rfl

theorem listOf_listJson {α : Type} (f : JT → Option α) (g : α → JT) (o : Option (List α)) (h : ∀ l, o = some l → ∀ a ∈ l, f (g a) = some a) :
    listOf f (listJson g o) = some o := by
  cases o with
  | none => rfl
  | some l => rw [listJson, listOf, allOf_map f g l (h l rfl)]; rfl

theorem text_of (d : List (Text × JT)) (k s : Text) (h : dget d k = some (.str s)) : textAt (.obj d) k = some s := by
  rw [textAt, h]

theorem tree_of (d : List (Text × JT)) (k : Text) (v : Val) (h : dget d k = some (jsonOf v)) : treeAt (.obj d) k = some v := by
  rw [treeAt, h]
  exact valOf_jsonOf v

theorem raw_of (d : List (Text × JT)) (l : List Val) (h : dget d "raw".toList = some (jsonOf (.list l))) : rawAt (.obj d) = some l := by
  rw [rawAt, tree_of d _ _ h]

theorem recOf_recJson (r : Rec) : recOf (recJson r) = some r := by
  rw [recOf, recJson, text_of _ _ r.name (by rw [dget_hit]),
    tree_of _ "id".toList r.id (by rw [dget_miss _ _ _ _ (by decide), dget_hit]),
    tree_of _ "raw".toList r.raw (by rw [dget_miss _ _ _ _ (by decide), dget_miss _ _ _ _ (by decide), dget_hit])]
  rfl

theorem childOf_childJson (r : Child) : childOf (childJson r) = some r := by
  rw [childOf, childJson, text_of _ _ r.name (by rw [dget_hit]),
    tree_of _ "id".toList r.id (by rw [dget_miss _ _ _ _ (by decide), dget_hit]),
    tree_of _ "raw".toList r.raw (by rw [dget_miss _ _ _ _ (by decide), dget_miss _ _ _ _ (by decide), dget_hit])]
  rfl

theorem paramOf_paramJson (r : Rec) (h : r.id = .none) : paramOf (paramJson r) = some r := by
  rw [paramOf, paramJson, text_of _ _ r.name (by rw [dget_hit]),
    tree_of _ "raw".toList r.raw (by rw [dget_miss _ _ _ _ (by decide), dget_hit])]
  obtain ⟨n, i, v⟩ := r
  cases h
  rfl

theorem childrenAt_of (a b c : Text × JT) (l : List Child) (h1 : a.1 ≠ "child".toList) (h2 : b.1 ≠ "child".toList) (h3 : c.1 ≠ "child".toList) :
    childrenAt (.obj ([a, b, c] ++ childEntry l)) = some l := by
  have e : entry (.obj ([a, b, c] ++ childEntry l)) "child".toList = dget (childEntry l) "child".toList := by
    show dget _ _ = _
    rw [List.cons_append, dget_miss _ _ _ _ h1, List.cons_append, dget_miss _ _ _ _ h2, List.cons_append, dget_miss _ _ _ _ h3]
    rfl
  rw [childrenAt, e]
  cases l with
  | nil => rfl
  | cons c r =>
    rw [childEntry, dget_hit]
    simp only
    rw [listOf, allOf_map childOf childJson _ (fun a _ => childOf_childJson a)]
    rfl

theorem propOf_propJson (p : PropRec) : propOf (propJson p) = some p := by
  rw [propOf, propJson, text_of _ _ p.name (by rw [List.cons_append, dget_hit]),
    tree_of _ "id".toList p.id (by rw [List.cons_append, dget_miss _ _ _ _ (by decide), List.cons_append, dget_hit]),
    raw_of _ p.raw (by rw [List.cons_append, dget_miss _ _ _ _ (by decide), List.cons_append, dget_miss _ _ _ _ (by decide), List.cons_append, dget_hit]),
    childrenAt_of _ _ _ p.child (by show "name".toList ≠ _; decide) (by show "id".toList ≠ _; decide) (by show "raw".toList ≠ _; decide)]
  rfl

theorem kindNamed_label (k : Kind) : kindNamed (label k) = some k := by cases k <;> decide

mutual
theorem nodeOf_nodeJson : ∀ n : V8.Form.Node, nodeOf (nodeJson n) = some n
  | .mk name k child => by
    have ht : ∀ tl, textAt (.obj ([("name".toList, .str name), ("type".toList, .str (label k))] ++ tl)) "name".toList = some name := by
      intro tl
      exact text_of _ _ _ (by rw [List.cons_append, dget_hit])
    have hk : ∀ tl, (textAt (.obj ([("name".toList, .str name), ("type".toList, .str (label k))] ++ tl)) "type".toList).bind kindNamed = some k := by
      intro tl
      rw [text_of _ _ _ (by rw [List.cons_append, dget_miss _ _ _ _ (by decide), List.cons_append, dget_hit])]
      exact kindNamed_label k
    have hc : ∀ tl, kidsOf ([("name".toList, JT.str name), ("type".toList, .str (label k))] ++ tl) = kidsOf tl := by
      intro tl
      rw [List.cons_append, kidsOf, if_neg (by decide), List.cons_append, kidsOf, if_neg (by decide)]
      rfl
    cases child with
    | nil =>
      rw [nodeJson]
      rw [nodeOf, ht, hk, hc]
      by_cases h : k.child.isSome = true
      · rw [if_pos h, kidsOf, if_pos rfl, kidList]
      · rw [if_neg h, kidsOf]
    | cons n r =>
      rw [nodeJson]
      rw [nodeOf, ht, hk, hc, kidsOf, if_pos rfl, kidList, nodesOf, nodeOf_nodeJson n, nodesOf_nodesJson r]
      rfl
theorem nodesOf_nodesJson : ∀ l : List V8.Form.Node, nodesOf (nodesJson l) = some l
  | [] => by rw [nodesJson, nodesOf]
  | n :: r => by rw [nodesJson, nodesOf, nodeOf_nodeJson n, nodesOf_nodesJson r]; rfl
end

theorem word_of (d : List (Text × JT)) (k : Text) (o : Option Text) (h : dget d k = o.map JT.str) : wordAt (.obj d) k = some o := by
  rw [wordAt]
  show (match dget d k with | none => some none | some (.str s) => some (some s) | some _ => none) = _
  rw [h]
  cases o <;> rfl

theorem dget_nil (k : Text) : dget [] k = none := rfl

theorem dget_append_miss (a b : List (Text × JT)) (k : Text) (h : ∀ p ∈ a, p.1 ≠ k) : dget (a ++ b) k = dget b k := by
  induction a with
  | nil => rfl
  | cons p r ih =>
    obtain ⟨k', v⟩ := p
    rw [List.cons_append, dget_miss _ _ _ _ (h _ (List.mem_cons_self ..)), ih (fun q hq => h q (List.mem_cons_of_mem _ hq))]

theorem wordJson_keys (k : Text) (o : Option Text) : ∀ p ∈ wordJson k o, p.1 = k := by
  cases o with
  | none => intro p hp; cases hp
  | some s =>
    intro p hp
    rw [wordJson, List.mem_singleton] at hp
    rw [hp]

theorem dget_wordJson (k : Text) (o : Option Text) (r : List (Text × JT)) (h : dget r k = none) : dget (wordJson k o ++ r) k = o.map JT.str := by
  cases o with
  | none => exact h
  | some s => rw [wordJson, List.cons_append, dget_hit]; rfl

theorem dataOf_dataJson (d : V8.Form.Data) : dataOf (dataJson d) = some d := by
  have h1 : dget ([("raw".toList, jsonOf (.list d.raw)), ("ver".toList, .int 4)] ++ wordJson "ПутьКДанным".toList d.prop ++ wordJson "ИмяКоманды".toList d.command)
      "ПутьКДанным".toList = d.prop.map JT.str := by
    rw [List.append_assoc, dget_append_miss _ _ _ (by
      intro p hp
      rcases List.mem_cons.mp hp with rfl | hp
      · show "raw".toList ≠ _; decide
      · rw [List.mem_singleton] at hp; subst hp; show "ver".toList ≠ _; decide)]
    apply dget_wordJson
    rw [← List.append_nil (wordJson _ d.command), dget_append_miss _ _ _ (by
      intro p hp
      rw [wordJson_keys _ _ p hp]
      decide)]
    rfl
  have h2 : dget ([("raw".toList, jsonOf (.list d.raw)), ("ver".toList, .int 4)] ++ wordJson "ПутьКДанным".toList d.prop ++ wordJson "ИмяКоманды".toList d.command)
      "ИмяКоманды".toList = d.command.map JT.str := by
    rw [dget_append_miss _ _ _ (by
      intro p hp
      rcases List.mem_append.mp hp with hp | hp
      · rcases List.mem_cons.mp hp with rfl | hp
        · show "raw".toList ≠ _; decide
        · rw [List.mem_singleton] at hp; subst hp; show "ver".toList ≠ _; decide
      · rw [wordJson_keys _ _ p hp]
        decide), ← List.append_nil (wordJson _ d.command)]
    exact dget_wordJson _ _ _ rfl
  rw [dataOf, dataJson, raw_of _ d.raw (by rw [List.append_assoc, List.cons_append, dget_hit]), word_of _ _ _ h1, word_of _ _ _ h2]
  rfl

theorem pairs_of {α : Type} (f : JT → Option α) (g : Text × α → JT) (l : List (Text × α)) (h : ∀ p ∈ l, f (g p) = some p.2) :
    allOf (pairOf f) (l.map (fun p => (p.1, g p))) = some l :=
  allOf_map _ _ _ (fun p hp => by rw [pairOf, h p hp]; rfl)

theorem keys_pairwise {α : Type} (g : Text × α → JT) (l : List (Text × α)) (h : (l.map (·.1)).Nodup) :
    (l.map (fun p => (p.1, g p))).Pairwise (fun a b => a.1 ≠ b.1) := by
  rw [List.pairwise_map]
  rw [List.Nodup, List.pairwise_map] at h
  exact h

/-- the elements of a managed form are read as they were written -/
theorem managedOf_managedJson (s : V8.Form.Src) (h : ∀ l, s.params = some l → ∀ r ∈ l, r.id = .none)
    (hd : (s.data.map (·.1)).Nodup) : managedOf (managedJson s) = some s := by
  have e1 : listAt paramOf (managedJson s) "params".toList = some s.params := by
    rw [listAt, managedJson, entry, dget_hit]
    exact listOf_listJson _ _ _ (fun l hl r hr => paramOf_paramJson r (h l hl r hr))
  have e2 : listAt propOf (managedJson s) "props".toList = some s.props := by
    rw [listAt, managedJson, entry, dget_miss _ _ _ _ (by decide), dget_hit]
    exact listOf_listJson _ _ _ (fun l _ r _ => propOf_propJson r)
  have e3 : listAt recOf (managedJson s) "commands".toList = some s.commands := by
    rw [listAt, managedJson, entry, dget_miss _ _ _ _ (by decide), dget_miss _ _ _ _ (by decide), dget_hit]
    exact listOf_listJson _ _ _ (fun l _ r _ => recOf_recJson r)
  have e4 : treeOf nodesOf (managedJson s) = some s.tree := by
    rw [treeOf, managedJson, entry, dget_miss _ _ _ _ (by decide), dget_miss _ _ _ _ (by decide), dget_miss _ _ _ _ (by decide), dget_hit]
    exact nodesOf_nodesJson _
  have e5 : dictAt dataOf (managedJson s) "data".toList = some s.data := by
    rw [dictAt, managedJson, entry, dget_miss _ _ _ _ (by decide), dget_miss _ _ _ _ (by decide), dget_miss _ _ _ _ (by decide),
      dget_miss _ _ _ _ (by decide), dget_hit]
    simp only
    rw [dictOf_id _ (keys_pairwise _ _ hd)]
    exact pairs_of dataOf (fun p => dataJson p.2) _ (fun p _ => dataOf_dataJson p.2)
  rw [managedOf, e1, e2, e3, e4, e5]
  rfl

/-! ### ordinary forms -/

theorem page_of (d : List (Text × JT)) (p : Text) (h : dget d "page".toList = some (pageJson p)) : pageAt (.obj d) = some p := by
  rw [pageAt, entry, h]
  cases p <;> rfl

mutual
theorem onodeOf_onodeJson : ∀ n : V8.OForm.Node, onodeOf (onodeJson n) = some n
  | .mk name l page child => by
    have ht : ∀ tl, textAt (.obj ([("name".toList, .str name), ("type".toList, .str l), ("page".toList, pageJson page)] ++ tl)) "name".toList = some name := by
      intro tl
      exact text_of _ _ _ (by rw [List.cons_append, dget_hit])
    have hk : ∀ tl, textAt (.obj ([("name".toList, .str name), ("type".toList, .str l), ("page".toList, pageJson page)] ++ tl)) "type".toList = some l := by
      intro tl
      exact text_of _ _ _ (by rw [List.cons_append, dget_miss _ _ _ _ (by decide), List.cons_append, dget_hit])
    have hp : ∀ tl, pageAt (.obj ([("name".toList, .str name), ("type".toList, .str l), ("page".toList, pageJson page)] ++ tl)) = some page := by
      intro tl
      exact page_of _ _ (by rw [List.cons_append, dget_miss _ _ _ _ (by decide), List.cons_append, dget_miss _ _ _ _ (by decide), List.cons_append, dget_hit])
    have hc : ∀ tl, okidsOf ([("name".toList, JT.str name), ("type".toList, .str l), ("page".toList, pageJson page)] ++ tl) = okidsOf tl := by
      intro tl
      rw [List.cons_append, okidsOf, if_neg (by decide), List.cons_append, okidsOf, if_neg (by decide), List.cons_append, okidsOf, if_neg (by decide)]
      rfl
    cases child with
    | nil =>
      rw [onodeJson]
      rw [onodeOf, ht, hk, hp, hc]
      by_cases h : l = V8.OForm.panelLabel
      · rw [if_pos h, okidsOf, if_pos rfl, okidList, onodesOf]
      · rw [if_neg h, okidsOf]
    | cons n r =>
      rw [onodeJson]
      rw [onodeOf, ht, hk, hp, hc, okidsOf, if_pos rfl, okidList, onodesOf, onodeOf_onodeJson n, onodesOf_onodesJson r]
      rfl
theorem onodesOf_onodesJson : ∀ l : List V8.OForm.Node, onodesOf (onodesJson l) = some l
  | [] => by rw [onodesJson, onodesOf]
  | n :: r => by rw [onodesJson, onodesOf, onodeOf_onodeJson n, onodesOf_onodesJson r]; rfl
end

theorem entryOf_entryJson (ver : Int) (key : Text) (e : V8.OForm.Entry) : entryOf (entryJson ver key e) = some e := by
  cases e with
  | elem raw prop =>
    have hm : ∀ k, (∀ p ∈ [("id".toList, jsonOf ((raw[1]?).getD .none)), ("ver".toList, JT.int ver), ("page".toList, .str (pageKey key raw)),
        ("raw".toList, jsonOf (.list raw))], p.1 ≠ k) → dget ([("id".toList, jsonOf ((raw[1]?).getD .none)), ("ver".toList, .int ver), ("page".toList, .str (pageKey key raw)),
      ("raw".toList, jsonOf (.list raw))] ++ wordJson "prop".toList prop) k = dget (wordJson "prop".toList prop) k := fun k h => dget_append_miss _ _ _ h
    rw [entryJson, entryOf, entry, hm "page_format_version".toList (by
        intro p hp
        simp only [List.mem_cons, List.not_mem_nil, or_false] at hp
        rcases hp with rfl | rfl | rfl | rfl <;> (dsimp only; decide)),
      ← List.append_nil (wordJson _ prop), dget_append_miss _ _ _ (by intro p hp; rw [wordJson_keys _ _ p hp]; decide), dget_nil]
    simp only
    rw [List.append_nil, raw_of _ raw (by
        rw [List.cons_append, dget_miss _ _ _ _ (by decide), List.cons_append, dget_miss _ _ _ _ (by decide), List.cons_append,
          dget_miss _ _ _ _ (by decide), List.cons_append, dget_hit]),
      word_of _ _ prop (by
        rw [hm "prop".toList (by
          intro p hp
          simp only [List.mem_cons, List.not_mem_nil, or_false] at hp
          rcases hp with rfl | rfl | rfl | rfl <;> (dsimp only; decide)), ← List.append_nil (wordJson _ prop)]
        exact dget_wordJson _ _ _ rfl)]
    rfl
  | page raw info =>
    rw [entryJson, entryOf, entry, dget_miss _ _ _ _ (by decide), dget_hit]
    simp only
    rw [tree_of _ "raw".toList raw (by rw [dget_miss _ _ _ _ (by decide), dget_miss _ _ _ _ (by decide), dget_hit])]
    have : infoAt (.obj [("ver".toList, .int ver), ("page_format_version".toList, jsonOf ((idx raw 0).getD .none)), ("raw".toList, jsonOf raw),
      ("info".toList, jsonOf (.list info))]) = some info := by
      rw [infoAt, entry, dget_miss _ _ _ _ (by decide), dget_miss _ _ _ _ (by decide), dget_miss _ _ _ _ (by decide), dget_hit]
      simp only
      rw [valOf_jsonOf]
    rw [this]
    rfl
  | pages names =>
    rw [entryJson, entryOf, allOf_map nameOf JT.str _ (fun _ _ => rfl)]
    rfl

/-- the elements of an ordinary form are read as they were written -/
theorem ordinaryOf_ordinaryJson (ver : Int) (s : V8.OForm.Src) (hd : (s.data.map (·.1)).Nodup) : ordinaryOf (ordinaryJson ver s) = some s := by
  have e2 : listAt recOf (ordinaryJson ver s) "props".toList = some s.attrs := by
    rw [listAt, ordinaryJson, entry, dget_miss _ _ _ _ (by decide), dget_hit]
    exact listOf_listJson _ _ _ (fun l _ r _ => recOf_recJson r)
  have e4 : treeOf onodesOf (ordinaryJson ver s) = some s.tree := by
    rw [treeOf, ordinaryJson, entry, dget_miss _ _ _ _ (by decide), dget_miss _ _ _ _ (by decide), dget_miss _ _ _ _ (by decide), dget_hit]
    exact onodesOf_onodesJson _
  have e5 : dictAt entryOf (ordinaryJson ver s) "data".toList = some s.data := by
    rw [dictAt, ordinaryJson, entry, dget_miss _ _ _ _ (by decide), dget_miss _ _ _ _ (by decide), dget_miss _ _ _ _ (by decide),
      dget_miss _ _ _ _ (by decide), dget_hit]
    simp only
    rw [dictOf_id _ (keys_pairwise _ _ hd)]
    exact pairs_of entryOf (fun p => entryJson ver p.1 p.2) _ (fun p _ => entryOf_entryJson ver p.1 p.2)
  rw [ordinaryOf, e2, e4, e5]
  rfl

/-! with the option auto_include -/

mutual
/-- pages and panels have elements, nothing else has -/
def Shaped : V8.OForm.Node → Prop
  | .mk _ l page child => page = [] ∧ (l ≠ V8.OForm.panelLabel → l ≠ V8.OAuto.pageLabel → child = []) ∧ ShapedAll child
def ShapedAll : List V8.OForm.Node → Prop
  | [] => True
  | n :: r => Shaped n ∧ ShapedAll r
end

theorem shapedAll_of : ∀ l : List V8.OForm.Node, (∀ n ∈ l, Shaped n) → ShapedAll l
  | [], _ => by rw [ShapedAll]; trivial
  | n :: r, h => by
    rw [ShapedAll]
    exact ⟨h n List.mem_cons_self, shapedAll_of r (fun m hm => h m (List.mem_cons_of_mem _ hm))⟩

mutual
theorem anodeOf_anodeJson : ∀ n : V8.OForm.Node, Shaped n → anodeOf (anodeJson n) = some n
  | .mk name l page child, h => by
    rw [Shaped] at h
    obtain ⟨rfl, h2, h3⟩ := h
    have ht : ∀ tl, textAt (.obj ([("name".toList, .str name), ("type".toList, .str l)] ++ tl)) "name".toList = some name := by
      intro tl
      exact text_of _ _ _ (by rw [List.cons_append, dget_hit])
    have hk : ∀ tl, textAt (.obj ([("name".toList, .str name), ("type".toList, .str l)] ++ tl)) "type".toList = some l := by
      intro tl
      exact text_of _ _ _ (by rw [List.cons_append, dget_miss _ _ _ _ (by decide), List.cons_append, dget_hit])
    have hc : ∀ tl, akidsOf ([("name".toList, JT.str name), ("type".toList, .str l)] ++ tl) = akidsOf tl := by
      intro tl
      rw [List.cons_append, akidsOf, if_neg (by decide), List.cons_append, akidsOf, if_neg (by decide)]
      rfl
    rw [anodeJson, anodeOf, ht, hk, hc]
    by_cases hl : l = V8.OForm.panelLabel ∨ l = V8.OAuto.pageLabel
    · rw [if_pos hl, akidsOf, if_pos rfl, akidList, anodesOf_anodesJson child h3]
    · rw [if_neg hl, akidsOf, h2 (fun e => hl (.inl e)) (fun e => hl (.inr e))]
theorem anodesOf_anodesJson : ∀ l : List V8.OForm.Node, ShapedAll l → anodesOf (anodesJson l) = some l
  | [], _ => by rw [anodesJson, anodesOf]
  | n :: r, h => by
    rw [ShapedAll] at h
    rw [anodesJson, anodesOf, anodeOf_anodeJson n h.1, anodesOf_anodesJson r h.2]
    rfl
end

/-- the elements of an ordinary form with the option auto_include are read as they were written -/
theorem autoOf_autoJson (ver : Int) (s : V8.OForm.Src) (hd : (s.data.map (·.1)).Nodup) (ht : ShapedAll s.tree) : autoOf (autoJson ver s) = some s := by
  have e2 : listAt recOf (autoJson ver s) "props".toList = some s.attrs := by
    rw [listAt, autoJson, entry, dget_miss _ _ _ _ (by decide), dget_hit]
    exact listOf_listJson _ _ _ (fun l _ r _ => recOf_recJson r)
  have e4 : treeOf anodesOf (autoJson ver s) = some s.tree := by
    rw [treeOf, autoJson, entry, dget_miss _ _ _ _ (by decide), dget_miss _ _ _ _ (by decide), dget_miss _ _ _ _ (by decide), dget_hit]
    exact anodesOf_anodesJson _ ht
  have e5 : dictAt entryOf (autoJson ver s) "data".toList = some s.data := by
    rw [dictAt, autoJson, entry, dget_miss _ _ _ _ (by decide), dget_miss _ _ _ _ (by decide), dget_miss _ _ _ _ (by decide),
      dget_miss _ _ _ _ (by decide), dget_hit]
    simp only
    rw [dictOf_id _ (keys_pairwise _ _ hd)]
    exact pairs_of entryOf (fun p => entryJson ver p.1 p.2) _ (fun p _ => entryOf_entryJson ver p.1 p.2)
  rw [autoOf, e2, e4, e5]
  rfl

/-! ### the files are JSON -/

theorem wfs_map {α : Type} (f : α → JT) (l : List α) (h : ∀ a ∈ l, (f a).WF) : WFs (l.map f) := by
  induction l with
  | nil => rw [List.map_nil, WFs]; trivial
  | cons a r ih =>
    rw [List.map_cons, WFs]
    exact ⟨h a (List.mem_cons_self ..), ih (fun b hb => h b (List.mem_cons_of_mem _ hb))⟩

theorem wfd_map {α : Type} (f : α → Text × JT) (l : List α) (h : ∀ a ∈ l, (f a).2.WF) : WFd (l.map f) := by
  induction l with
  | nil => rw [List.map_nil, WFd]; trivial
  | cons a r ih =>
    have h1 := h a (List.mem_cons_self ..)
    rw [List.map_cons]
    generalize f a = q at h1 ⊢
    obtain ⟨k, v⟩ := q
    rw [WFd]
    exact ⟨h1, ih (fun b hb => h b (List.mem_cons_of_mem _ hb))⟩

theorem arr_wf {l : List JT} (h : WFs l) : (JT.arr l).WF := by rw [JT.WF]; exact h
theorem obj_wf {d : List (Text × JT)} (h1 : d.Pairwise (fun a b => a.1 ≠ b.1)) (h2 : WFd d) : (JT.obj d).WF := by rw [JT.WF]; exact ⟨h1, h2⟩
/-- the keys are known and different -/
theorem once {d : List (Text × JT)} (ks : List String) (h : d.map (·.1) = ks.map String.toList) (hk : (ks.map String.toList).Nodup) :
    d.Pairwise (fun a b => a.1 ≠ b.1) := by
  rw [← h, List.Nodup, List.pairwise_map] at hk
  exact hk

theorem null_wf' : JT.null.WF := by rw [JT.WF] <;> first | trivial | simp
theorem int_wf (i : Int) : (JT.int i).WF := by rw [JT.WF] <;> first | trivial | simp
theorem wfd_cons {k : Text} {v : JT} {r : List (Text × JT)} (h1 : v.WF) (h2 : WFd r) : WFd ((k, v) :: r) := by rw [WFd]; exact ⟨h1, h2⟩
theorem wfd_nil : WFd [] := by rw [WFd]; trivial
theorem wfs_nil : WFs [] := by rw [WFs]; trivial
theorem wfs_cons {v : JT} {r : List JT} (h1 : v.WF) (h2 : WFs r) : WFs (v :: r) := by rw [WFs]; exact ⟨h1, h2⟩

theorem listJson_wf {α : Type} (f : α → JT) (o : Option (List α)) (h : ∀ a, (f a).WF) : (listJson f o).WF := by
  cases o with
  | none => exact null_wf'
  | some l => exact arr_wf (wfs_map f l (fun a _ => h a))

theorem recJson_wf (r : Rec) : (recJson r).WF :=
  obj_wf (once ["name", "id", "raw"] rfl (by decide)) (wfd_cons (str_wf _) (wfd_cons (jsonOf_wf _) (wfd_cons (jsonOf_wf _) wfd_nil)))

theorem paramJson_wf (r : Rec) : (paramJson r).WF := obj_wf (once ["name", "raw"] rfl (by decide)) (wfd_cons (str_wf _) (wfd_cons (jsonOf_wf _) wfd_nil))

theorem childJson_wf (r : Child) : (childJson r).WF :=
  obj_wf (once ["name", "id", "raw"] rfl (by decide)) (wfd_cons (str_wf _) (wfd_cons (jsonOf_wf _) (wfd_cons (jsonOf_wf _) wfd_nil)))

theorem propJson_wf (p : PropRec) : (propJson p).WF := by
  cases h : p.child with
  | nil =>
    rw [propJson, h]
    exact obj_wf (once ["name", "id", "raw"] rfl (by decide)) (wfd_cons (str_wf _) (wfd_cons (jsonOf_wf _) (wfd_cons (jsonOf_wf _) wfd_nil)))
  | cons c r =>
    rw [propJson, h]
    exact obj_wf (once ["name", "id", "raw", "child"] rfl (by decide)) (wfd_cons (str_wf _) (wfd_cons (jsonOf_wf _) (wfd_cons (jsonOf_wf _)
      (wfd_cons (arr_wf (wfs_map _ _ (fun a _ => childJson_wf a))) wfd_nil))))

mutual
theorem nodeJson_wf : ∀ n : V8.Form.Node, (nodeJson n).WF
  | .mk name k child => by
    cases child with
    | nil =>
      rw [nodeJson]
      by_cases h : k.child.isSome = true
      · rw [if_pos h]
        exact obj_wf (once ["name", "type", "child"] rfl (by decide)) (wfd_cons (str_wf _) (wfd_cons (str_wf _) (wfd_cons null_wf' wfd_nil)))
      · rw [if_neg h]
        exact obj_wf (once ["name", "type"] rfl (by decide)) (wfd_cons (str_wf _) (wfd_cons (str_wf _) wfd_nil))
    | cons n r =>
      rw [nodeJson]
      exact obj_wf (once ["name", "type", "child"] rfl (by decide)) (wfd_cons (str_wf _) (wfd_cons (str_wf _) (wfd_cons (arr_wf (wfs_cons (nodeJson_wf n) (nodesJson_wf r))) wfd_nil)))
theorem nodesJson_wf : ∀ l : List V8.Form.Node, WFs (nodesJson l)
  | [] => by rw [nodesJson]; exact wfs_nil
  | n :: r => by rw [nodesJson]; exact wfs_cons (nodeJson_wf n) (nodesJson_wf r)
end

theorem wordJson_wf (k : Text) (o : Option Text) : WFd (wordJson k o) := by
  cases o with
  | none => exact wfd_nil
  | some s => exact wfd_cons (str_wf _) wfd_nil

theorem dataJson_wf (d : V8.Form.Data) : (dataJson d).WF := by
  refine obj_wf ?_ (wfd_append _ _ (wfd_append _ _ (wfd_cons (jsonOf_wf _) (wfd_cons (int_wf _) wfd_nil)) (wordJson_wf _ _)) (wordJson_wf _ _))
  cases d.prop <;> cases d.command
  · exact once ["raw", "ver"] rfl (by decide)
  · exact once ["raw", "ver", "ИмяКоманды"] rfl (by decide)
  · exact once ["raw", "ver", "ПутьКДанным"] rfl (by decide)
  · exact once ["raw", "ver", "ПутьКДанным", "ИмяКоманды"] rfl (by decide)

theorem mem_dset (d : List (Text × JT)) (k : Text) (v : JT) : ∀ p ∈ dset d k v, p.1 = k ∨ ∃ q ∈ d, q.1 = p.1 := by
  induction d with
  | nil =>
    intro p hp
    rw [dset, List.mem_singleton] at hp
    left; rw [hp]
  | cons a r ih =>
    obtain ⟨k', v'⟩ := a
    intro p hp
    rw [dset] at hp
    by_cases h : k' = k
    · rw [if_pos h] at hp
      rcases List.mem_cons.mp hp with rfl | hp
      · left; exact h
      · right; exact ⟨p, List.mem_cons_of_mem _ hp, rfl⟩
    · rw [if_neg h] at hp
      rcases List.mem_cons.mp hp with rfl | hp
      · right; exact ⟨_, List.mem_cons_self .., rfl⟩
      · rcases ih p hp with h2 | ⟨q, hq, h2⟩
        · left; exact h2
        · right; exact ⟨q, List.mem_cons_of_mem _ hq, h2⟩

theorem dset_keys (d : List (Text × JT)) (k : Text) (v : JT) (h : d.Pairwise (fun a b => a.1 ≠ b.1)) :
    (dset d k v).Pairwise (fun a b => a.1 ≠ b.1) := by
  induction d with
  | nil => rw [dset]; exact List.pairwise_singleton ..
  | cons a r ih =>
    obtain ⟨k', v'⟩ := a
    rw [List.pairwise_cons] at h
    rw [dset]
    by_cases hk : k' = k
    · rw [if_pos hk, List.pairwise_cons]
      exact ⟨fun b hb => h.1 b hb, h.2⟩
    · rw [if_neg hk, List.pairwise_cons]
      refine ⟨?_, ih h.2⟩
      intro b hb
      rcases mem_dset r k v b hb with h2 | ⟨q, hq, h2⟩
      · rw [h2]; exact hk
      · rw [← h2]; exact h.1 q hq

theorem dset_wf (d : List (Text × JT)) (k : Text) (v : JT) (h : WFd d) (hv : v.WF) : WFd (dset d k v) := by
  induction d with
  | nil => rw [dset]; exact wfd_cons hv wfd_nil
  | cons a r ih =>
    obtain ⟨k', v'⟩ := a
    rw [WFd] at h
    rw [dset]
    by_cases hk : k' = k
    · rw [if_pos hk]; exact wfd_cons hv h.2
    · rw [if_neg hk]; exact wfd_cons h.1 (ih h.2)

/-- a dict has every key once -/
theorem dictOf_wf (ps : List (Text × JT)) (h : WFd ps) : (JT.obj (dictOf ps)).WF := by
  have : ∀ (ps d : List (Text × JT)), WFd ps → d.Pairwise (fun a b => a.1 ≠ b.1) → WFd d →
      (ps.foldl (fun d p => dset d p.1 p.2) d).Pairwise (fun a b => a.1 ≠ b.1) ∧ WFd (ps.foldl (fun d p => dset d p.1 p.2) d) := by
    intro ps
    induction ps with
    | nil => intro d _ h1 h2; exact ⟨h1, h2⟩
    | cons p r ih =>
      obtain ⟨k, v⟩ := p
      intro d hp h1 h2
      rw [WFd] at hp
      rw [List.foldl_cons]
      exact ih _ hp.2 (dset_keys d k v h1) (dset_wf d k v h2 hp.1)
  obtain ⟨h1, h2⟩ := this ps [] h List.Pairwise.nil wfd_nil
  exact obj_wf h1 h2

theorem managedJson_wf (s : V8.Form.Src) : (managedJson s).WF :=
  obj_wf (once ["params", "props", "commands", "tree", "data"] rfl (by decide))
    (wfd_cons (listJson_wf _ _ paramJson_wf) (wfd_cons (listJson_wf _ _ propJson_wf) (wfd_cons (listJson_wf _ _ recJson_wf)
      (wfd_cons (arr_wf (nodesJson_wf _)) (wfd_cons (dictOf_wf _ (wfd_map _ _ (fun a _ => dataJson_wf a.2))) wfd_nil)))))

theorem pageJson_wf (p : Text) : (pageJson p).WF := by
  cases p with
  | nil => exact null_wf'
  | cons c r => exact str_wf _

mutual
theorem onodeJson_wf : ∀ n : V8.OForm.Node, (onodeJson n).WF
  | .mk name l page child => by
    cases child with
    | nil =>
      rw [onodeJson]
      by_cases h : l = V8.OForm.panelLabel
      · rw [if_pos h]
        exact obj_wf (once ["name", "type", "page", "child"] rfl (by decide)) (wfd_cons (str_wf _) (wfd_cons (str_wf _) (wfd_cons (pageJson_wf _) (wfd_cons (arr_wf wfs_nil) wfd_nil))))
      · rw [if_neg h]
        exact obj_wf (once ["name", "type", "page"] rfl (by decide)) (wfd_cons (str_wf _) (wfd_cons (str_wf _) (wfd_cons (pageJson_wf _) wfd_nil)))
    | cons n r =>
      rw [onodeJson]
      exact obj_wf (once ["name", "type", "page", "child"] rfl (by decide)) (wfd_cons (str_wf _) (wfd_cons (str_wf _) (wfd_cons (pageJson_wf _)
        (wfd_cons (arr_wf (wfs_cons (onodeJson_wf n) (onodesJson_wf r))) wfd_nil))))
theorem onodesJson_wf : ∀ l : List V8.OForm.Node, WFs (onodesJson l)
  | [] => by rw [onodesJson]; exact wfs_nil
  | n :: r => by rw [onodesJson]; exact wfs_cons (onodeJson_wf n) (onodesJson_wf r)
end

theorem entryJson_wf (ver : Int) (key : Text) (e : V8.OForm.Entry) : (entryJson ver key e).WF := by
  cases e with
  | elem raw prop =>
    rw [entryJson]
    refine obj_wf ?_ (wfd_append _ _ (wfd_cons (jsonOf_wf _) (wfd_cons (int_wf _) (wfd_cons (str_wf _) (wfd_cons (jsonOf_wf _) wfd_nil)))) (wordJson_wf _ _))
    cases prop
    · exact once ["id", "ver", "page", "raw"] rfl (by decide)
    · exact once ["id", "ver", "page", "raw", "prop"] rfl (by decide)
  | page raw info =>
    rw [entryJson]
    exact obj_wf (once ["ver", "page_format_version", "raw", "info"] rfl (by decide)) (wfd_cons (int_wf _) (wfd_cons (jsonOf_wf _) (wfd_cons (jsonOf_wf _) (wfd_cons (jsonOf_wf _) wfd_nil))))
  | pages names =>
    rw [entryJson]
    exact arr_wf (wfs_map _ _ (fun a _ => str_wf a))

theorem ordinaryJson_wf (ver : Int) (s : V8.OForm.Src) : (ordinaryJson ver s).WF :=
  obj_wf (once ["params", "props", "commands", "tree", "data"] rfl (by decide))
    (wfd_cons (arr_wf wfs_nil) (wfd_cons (listJson_wf _ _ recJson_wf) (wfd_cons (arr_wf wfs_nil)
      (wfd_cons (arr_wf (onodesJson_wf _)) (wfd_cons (dictOf_wf _ (wfd_map _ _ (fun a _ => entryJson_wf ver a.1 a.2))) wfd_nil)))))

mutual
theorem anodeJson_wf : ∀ n : V8.OForm.Node, (anodeJson n).WF
  | .mk name l page child => by
    rw [anodeJson]
    by_cases h : l = V8.OForm.panelLabel ∨ l = V8.OAuto.pageLabel
    · rw [if_pos h]
      exact obj_wf (once ["name", "type", "child"] rfl (by decide)) (wfd_cons (str_wf _) (wfd_cons (str_wf _) (wfd_cons (arr_wf (anodesJson_wf child)) wfd_nil)))
    · rw [if_neg h]
      exact obj_wf (once ["name", "type"] rfl (by decide)) (wfd_cons (str_wf _) (wfd_cons (str_wf _) wfd_nil))
theorem anodesJson_wf : ∀ l : List V8.OForm.Node, WFs (anodesJson l)
  | [] => by rw [anodesJson]; exact wfs_nil
  | n :: r => by rw [anodesJson]; exact wfs_cons (anodeJson_wf n) (anodesJson_wf r)
end

theorem autoJson_wf (ver : Int) (s : V8.OForm.Src) : (autoJson ver s).WF :=
  obj_wf (once ["params", "props", "commands", "tree", "data"] rfl (by decide))
    (wfd_cons (arr_wf wfs_nil) (wfd_cons (listJson_wf _ _ recJson_wf) (wfd_cons (arr_wf wfs_nil)
      (wfd_cons (arr_wf (anodesJson_wf _)) (wfd_cons (dictOf_wf _ (wfd_map _ _ (fun a _ => entryJson_wf ver a.1 a.2))) wfd_nil)))))

theorem nothingJson_wf : nothingJson.WF :=
  obj_wf (by decide) (wfd_cons (arr_wf wfs_nil) (wfd_cons (arr_wf wfs_nil) (wfd_cons (arr_wf wfs_nil) (wfd_cons (arr_wf wfs_nil)
    (wfd_cons (obj_wf List.Pairwise.nil wfd_nil) wfd_nil)))))

end V8.FormJson
