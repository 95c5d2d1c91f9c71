import Verif.Props.PipeShape
/-
The folders of sources that extraction makes: there is a file in each, the files of elements are the JSON files of forms, and nothing else has such a name.
-/
namespace V8.Pipe
open V8.Str V8.Brace V8.Enc V8.JsonText V8.Object V8.Header
open V8.Tree hiding Dir
open V8.Store hiding Kind nodeOf
open V8.Code (Dir)
open V8.Leaf (dirOnly Leaf leafOut leafHas leafBack copyName leafOut_some)
open V8.FormObj (FCls Lim formOut formHas formBack formOut_some elemName objWord)
open V8.FormJson
open V8.Nested (Obj Entry)

/-! ### names -/

theorem ends_iff (a n : Text) : ends a n = true ↔ a <:+ n := by
  unfold ends
  exact List.isSuffixOf_iff_suffix

/-- a short extension is not the one of a file of elements -/
theorem plain_ext {a ext : Text} (ha : '.' ∉ a) (he : ext.length ≤ 8) : V8.Org.isElem (dot a ext) = false := by
  cases h : V8.Org.isElem (dot a ext) with
  | false => rfl
  | true =>
    unfold V8.Org.isElem at h
    rw [Bool.and_eq_true, ends_iff] at h
    obtain ⟨t, ht⟩ := h.2
    unfold dot at ht
    rw [List.append_eq_append_iff] at ht
    rcases ht with ⟨c, h1, h2⟩ | ⟨c, h1, h2⟩
    · cases c with
      | nil =>
        have := congrArg List.length h2
        rw [List.nil_append] at this
        have e : (".elem.json".toList).length = 10 := rfl
        rw [e, List.length_cons] at this
        omega
      | cons x c =>
        have e : ".elem.json".toList = '.' :: "elem.json".toList := rfl
        rw [e, List.cons_append] at h2
        injection h2 with h2 _
        rw [h1, ← h2] at ha
        exact absurd (List.mem_append_right _ List.mem_cons_self) ha
    · have := congrArg List.length h2
      have e : (".elem.json".toList).length = 10 := rfl
      rw [List.length_append, e, List.length_cons] at this
      omega

/-- no file of the classes but the elements of a form has the name of a file of elements -/
structure PlainNames (C : Text → Option Class) : Prop where
  file : ∀ ty c root k, C ty = some c → c.kindAt root = some k → ∀ n ∈ sources k, V8.Org.isElem n = false
  inner : ∀ ty k, C ty = some (.inner k) → ∀ n ∈ sources k, V8.Org.isElem n = false
  form : ∀ ty f, C ty = some (.form f) → ∀ n ∈ [idName f.name, objName f.name, bslName f.name objWord, binName f.name objWord], V8.Org.isElem n = false

/-! ### the elements of forms -/

mutual
theorem nodeE_managed : ∀ n : V8.Form.Node, ∃ m, nodeE (nodeJson n) = some m
  | .mk name k child => by
    rw [nodeJson.eq_def]
    cases child with
    | nil =>
      simp only
      cases k.child.isSome with
      | true =>
        rw [if_pos rfl, nodeE, kidsE_dget]
        exact ⟨_, rfl⟩
      | false =>
        rw [if_neg (fun h => by cases h), nodeE, kidsE_dget]
        exact ⟨_, rfl⟩
    | cons n r =>
      obtain ⟨m, hm⟩ := nodeE_managed n
      obtain ⟨l, hl⟩ := nodesE_managed r
      simp only
      rw [nodeE, kidsE_dget]
      have : dget ([("name".toList, JT.str name), ("type".toList, JT.str (label k))] ++ [("child".toList, JT.arr (nodeJson n :: nodesJson r))]) childWord =
        some (.arr (nodeJson n :: nodesJson r)) := rfl
      rw [this]
      simp only [childE, nodesE, hm, hl, Option.bind_some, Option.map_some]
      exact ⟨_, rfl⟩
theorem nodesE_managed : ∀ l : List V8.Form.Node, ∃ m, nodesE (nodesJson l) = some m
  | [] => ⟨[], by rw [nodesJson, nodesE]⟩
  | n :: r => by
    obtain ⟨m, hm⟩ := nodeE_managed n
    obtain ⟨l, hl⟩ := nodesE_managed r
    rw [nodesJson, nodesE, hm, hl]
    exact ⟨_, rfl⟩
end

mutual
theorem nodeE_ordinary : ∀ n : V8.OForm.Node, ∃ m, nodeE (onodeJson n) = some m
  | .mk name l page child => by
    rw [onodeJson.eq_def]
    cases child with
    | nil =>
      by_cases h : l = V8.OForm.panelLabel
      · simp only [if_pos h]
        rw [nodeE, kidsE_dget]
        have : dget ([("name".toList, JT.str name), ("type".toList, JT.str l), ("page".toList, pageJson page)] ++ [("child".toList, JT.arr [])]) childWord =
          some (.arr []) := rfl
        rw [this]
        simp only [childE, nodesE, Option.map_some]
        exact ⟨_, rfl⟩
      · simp only [if_neg h]
        rw [nodeE, kidsE_dget]
        exact ⟨_, rfl⟩
    | cons n r =>
      obtain ⟨m, hm⟩ := nodeE_ordinary n
      obtain ⟨l', hl⟩ := nodesE_ordinary r
      simp only
      rw [nodeE, kidsE_dget]
      have : dget ([("name".toList, JT.str name), ("type".toList, JT.str l), ("page".toList, pageJson page)] ++ [("child".toList, JT.arr (onodeJson n :: onodesJson r))])
        childWord = some (.arr (onodeJson n :: onodesJson r)) := rfl
      rw [this]
      simp only [childE, nodesE, hm, hl, Option.bind_some, Option.map_some]
      exact ⟨_, rfl⟩
theorem nodesE_ordinary : ∀ l : List V8.OForm.Node, ∃ m, nodesE (onodesJson l) = some m
  | [] => ⟨[], by rw [onodesJson, nodesE]⟩
  | n :: r => by
    obtain ⟨m, hm⟩ := nodeE_ordinary n
    obtain ⟨l, hl⟩ := nodesE_ordinary r
    rw [onodesJson, nodesE, hm, hl]
    exact ⟨_, rfl⟩
end

mutual
theorem nodeE_auto : ∀ n : V8.OForm.Node, ∃ m, nodeE (anodeJson n) = some m
  | .mk name l page child => by
    rw [anodeJson]
    by_cases h : l = V8.OForm.panelLabel ∨ l = V8.OAuto.pageLabel
    · obtain ⟨m, hm⟩ := nodesE_auto child
      rw [if_pos h, nodeE, kidsE_dget]
      have : dget ([("name".toList, JT.str name), ("type".toList, JT.str l)] ++ [("child".toList, JT.arr (anodesJson child))]) childWord =
        some (.arr (anodesJson child)) := rfl
      rw [this]
      simp only [childE, hm, Option.map_some]
      exact ⟨_, rfl⟩
    · rw [if_neg h, nodeE, kidsE_dget]
      exact ⟨_, rfl⟩
theorem nodesE_auto : ∀ l : List V8.OForm.Node, ∃ m, nodesE (anodesJson l) = some m
  | [] => ⟨[], by rw [anodesJson, nodesE]⟩
  | n :: r => by
    obtain ⟨m, hm⟩ := nodeE_auto n
    obtain ⟨l, hl⟩ := nodesE_auto r
    rw [anodesJson, nodesE, hm, hl]
    exact ⟨_, rfl⟩
end

/-- the organizer can read the elements of an ordinary form with the option auto_include -/
theorem elemsOf_auto (ver : Int) (s : V8.OForm.Src) : ∃ e, elemsOf (autoJson ver s) = some e := by
  obtain ⟨l, hl⟩ := nodesE_auto s.tree
  unfold autoJson elemsOf treeE dataE
  have h1 : dget [("params".toList, JT.arr []), ("props".toList, listJson recJson s.attrs), ("commands".toList, .arr []), ("tree".toList, .arr (anodesJson s.tree)),
    ("data".toList, .obj (dictOf (s.data.map (fun p => (p.1, entryJson ver p.1 p.2)))))] treeWord = some (.arr (anodesJson s.tree)) := rfl
  have h2 : dget [("params".toList, JT.arr []), ("props".toList, listJson recJson s.attrs), ("commands".toList, .arr []), ("tree".toList, .arr (anodesJson s.tree)),
    ("data".toList, .obj (dictOf (s.data.map (fun p => (p.1, entryJson ver p.1 p.2)))))] dataWord =
      some (.obj (dictOf (s.data.map (fun p => (p.1, entryJson ver p.1 p.2))))) := rfl
  simp only [h1, h2, hl, Option.bind_some, Option.map_some]
  exact ⟨_, rfl⟩

/-- the organizer can read the elements of a managed form -/
theorem elemsOf_managed (s : V8.Form.Src) : ∃ e, elemsOf (managedJson s) = some e := by
  obtain ⟨l, hl⟩ := nodesE_managed s.tree
  unfold managedJson elemsOf treeE dataE
  have h1 : dget [("params".toList, listJson paramJson s.params), ("props".toList, listJson propJson s.props),
    ("commands".toList, listJson recJson s.commands), ("tree".toList, .arr (nodesJson s.tree)),
    ("data".toList, .obj (dictOf (s.data.map (fun p => (p.1, dataJson p.2)))))] treeWord = some (.arr (nodesJson s.tree)) := rfl
  have h2 : dget [("params".toList, listJson paramJson s.params), ("props".toList, listJson propJson s.props),
    ("commands".toList, listJson recJson s.commands), ("tree".toList, .arr (nodesJson s.tree)),
    ("data".toList, .obj (dictOf (s.data.map (fun p => (p.1, dataJson p.2)))))] dataWord = some (.obj (dictOf (s.data.map (fun p => (p.1, dataJson p.2))))) := rfl
  simp only [h1, h2, hl, Option.bind_some, Option.map_some]
  exact ⟨_, rfl⟩

/-- the organizer can read the elements of an ordinary form -/
theorem elemsOf_ordinary (ver : Int) (s : V8.OForm.Src) : ∃ e, elemsOf (ordinaryJson ver s) = some e := by
  obtain ⟨l, hl⟩ := nodesE_ordinary s.tree
  unfold ordinaryJson elemsOf treeE dataE
  have h1 : dget [("params".toList, JT.arr []), ("props".toList, listJson recJson s.attrs), ("commands".toList, .arr []), ("tree".toList, .arr (onodesJson s.tree)),
    ("data".toList, .obj (dictOf (s.data.map (fun p => (p.1, entryJson ver p.1 p.2)))))] treeWord = some (.arr (onodesJson s.tree)) := rfl
  have h2 : dget [("params".toList, JT.arr []), ("props".toList, listJson recJson s.attrs), ("commands".toList, .arr []), ("tree".toList, .arr (onodesJson s.tree)),
    ("data".toList, .obj (dictOf (s.data.map (fun p => (p.1, entryJson ver p.1 p.2)))))] dataWord =
      some (.obj (dictOf (s.data.map (fun p => (p.1, entryJson ver p.1 p.2))))) := rfl
  simp only [h1, h2, hl, Option.bind_some, Option.map_some]
  exact ⟨_, rfl⟩

/-- the file of the elements of a form -/
def ElemFile (b : Bytes) : Prop := ∃ win j e, j.WF ∧ b = fileOf win j ∧ elemsOf j = some e

theorem elemsOut_file {g : Lim} {auto : Bool} {con : Option Text} {v : Option V8.FormObj.Decoder} {l : List V8.FormObj.File} {e : List V8.FormObj.File × JT}
    (h : V8.FormObj.elemsOut g auto con v l = some e) : e.2.WF ∧ ∃ es, elemsOf e.2 = some es := by
  have hno : nothingJson.WF ∧ ∃ es, elemsOf nothingJson = some es := ⟨nothingJson_wf, _, rfl⟩
  unfold V8.FormObj.elemsOut at h
  split at h
  · split at h
    · cases h; exact ⟨managedJson_wf _, elemsOf_managed _⟩
    · cases h; exact ⟨managedJson_wf _, elemsOf_managed _⟩
  · cases auto with
    | true =>
      simp only [if_true] at h
      cases h
      exact ⟨autoJson_wf _ _, elemsOf_auto _ _⟩
    | false =>
      simp only [Bool.false_eq_true, if_false] at h
      cases h
      exact ⟨ordinaryJson_wf _ _, elemsOf_ordinary _ _⟩
  · cases h; exact hno

/-! ### one object -/

/-- what extraction writes for one object -/
structure Shape (h : Handler) (F : Text → Option Node) (os : List Obj) (src : List (Place Node)) : Prop where
  any : ∃ n b, folder src n = some (.file b)
  flat : h.kids = true → ∀ m g, folder src m ≠ some (.dir g)
  leaf : h.kids = false → os = []
  dirs : ∀ m g, folder src m = some (.dir g) → ∃ u, F u = some (.dir g)
  elems : ∀ n b, V8.Org.isElem n = true → fileIn (folder src) n = some b → ElemFile b

theorem nodes_flat (ps : List (Place Bytes)) (m : Text) (g : Text → Option Bytes) : folder (nodes ps) m ≠ some (.dir g) := by
  rw [folder_nodes]
  intro h
  cases hf : folder ps m with
  | none => rw [hf] at h; cases h
  | some b => rw [hf] at h; cases h

theorem both_some {k : Store.Kind} {S : Text → Option Node} (h : hasBoth k S = true) : ∃ n b, S n = some (.file b) := by
  unfold hasBoth at h
  rw [Bool.and_eq_true] at h
  obtain ⟨b, hb⟩ := Option.isSome_iff_exists.mp h.2
  refine ⟨objName k.name, b, ?_⟩
  unfold fileIn at hb
  cases hS : S (objName k.name) with
  | none => rw [hS] at hb; cases hb
  | some nd =>
    rw [hS] at hb
    cases nd with
    | file c => cases hb; rfl
    | dir g => cases hb

theorem no_elems {src : List (Place Bytes)} (h : ∀ n ∈ src.map (·.1), V8.Org.isElem n = false) (n : Text) (hn : V8.Org.isElem n = true) :
    fileIn (folder (nodes src)) n = none := by
  rw [fileIn_folder]
  refine folder_none _ _ (fun hm => ?_)
  rw [h n hm] at hn
  cases hn

theorem shape_parts {k : Store.Kind} {h : Handler} {F : Text → Option Node} {os : List Obj} {src : List (Place Bytes)} (hs : src.map (·.1) = sources k)
    (hp : ∀ n ∈ sources k, V8.Org.isElem n = false) (hb : hasBoth k (folder (nodes src)) = true) (ho : h.kids = false → os = []) : Shape h F os (nodes src) := by
  refine ⟨both_some hb, fun _ m g => nodes_flat src m g, ho, fun m g hd => absurd hd (nodes_flat src m g), fun n b hn hf => ?_⟩
  rw [no_elems (by rw [hs]; exact hp) n hn] at hf
  cases hf

theorem extractAll_src {x : Ext} {k : Store.Kind} {ver : Option Text} {F : Text → Option Node} {u : Text} {info : Info} {os : List Obj}
    {src : List (Place Bytes)} (hx : extractAll x k ver F u = some (info, os, src)) : src.map (·.1) = sources k ∧ (k.cls.includes = false → os = []) := by
  unfold extractAll at hx
  cases hF : F u with
  | none => rw [hF] at hx; cases hx
  | some nd =>
    rw [hF] at hx
    cases nd with
    | dir f => cases hx
    | file b =>
      simp only [Option.bind_eq_some_iff, Option.map_eq_some_iff] at hx
      obtain ⟨r, hr, p, hpo, ⟨qi, qo, qs⟩, hq, he⟩ := hx
      simp only [Prod.mk.injEq] at he
      obtain ⟨_, rfl, rfl⟩ := he
      refine ⟨parts_names hpo _ _, fun hi => ?_⟩
      obtain ⟨d, hd, h', r1, r2, _, _, _, _, ht, _⟩ := extract_some hq
      unfold takeIncludes at ht
      rw [hi] at ht
      simp only [Bool.false_eq_true, if_false, Option.some.injEq, Prod.mk.injEq] at ht
      exact ht.2.symm

theorem innerAll_src {x : Ext} {k : Store.Kind} {F : Text → Option Node} {v : Val} {info : Info} {src : List (Place Bytes)}
    (hx : innerAll x k F v = some (info, src)) : src.map (·.1) = sources k := by
  unfold innerAll at hx
  simp only [Option.bind_eq_some_iff, Option.map_eq_some_iff] at hx
  obtain ⟨r, hr, p, hpo, q, hq, he⟩ := hx
  simp only [Prod.mk.injEq] at he
  obtain ⟨_, rfl⟩ := he
  exact parts_names hpo _ _

/-- the files of the description of a template or picture -/
theorem folder_mem' {α : Type} {ps : List (Place α)} {n : Text} {a : α} (h : folder ps n = some a) : (n, some a) ∈ ps := by
  unfold folder at h
  rw [Option.map_eq_some_iff] at h
  obtain ⟨p, hp, rfl⟩ := h
  have h1 := List.find?_some hp
  rw [decide_eq_true_eq] at h1
  have h2 := List.mem_reverse.mp (List.mem_of_find?_eq_some hp)
  rw [← h1]
  unfold written at h2
  rw [List.mem_filterMap] at h2
  obtain ⟨q, hq, h3⟩ := h2
  rw [Option.map_eq_some_iff] at h3
  obtain ⟨a, h4, rfl⟩ := h3
  rw [← h4]
  exact hq

theorem folder_last {α : Type} (ps : List (Place α)) (n : Text) (a : α) : folder (ps ++ [(n, some a)]) n = some a := by
  unfold folder written
  rw [List.filterMap_append, List.reverse_append]
  show (List.find? _ ((n, a) :: _)).map _ = _
  rw [List.find?_cons_of_pos (by exact decide_eq_true rfl)]
  rfl

/-- the files of a picture or template besides the JSON files -/
theorem leaf_parts {x : Ext} {t : Leaf} {F : Text → Option Node} {info : Info} {root : Val} {p : V8.Leaf.Parts} (h : V8.Leaf.partsOut x t F info root = some p) :
    (∀ n b, (n, some (Node.file b)) ∈ p.files → V8.Org.isElem n = false) ∧ ∀ n g, (n, some (Node.dir g)) ∈ p.files → ∃ u, F u = some (.dir g) := by
  have hext : ∀ cm, (V8.Misc.extension x.alnum cm).length ≤ 8 := by
    intro cm
    unfold V8.Misc.extension
    simp only
    by_cases hc : Str.strip cm = []
    · rw [if_pos hc]; decide
    · rw [if_neg hc]
      cases (Str.split ' ' (Str.strip cm)).getLast? with
      | none => simp only; decide
      | some e =>
        simp only
        by_cases he : e.length < 6 ∧ e ≠ [] ∧ e.all x.alnum
        · rw [if_pos he]; omega
        · rw [if_neg he]; decide
  have hno : ∀ (l : List (Place Bytes)) n g, (n, some (Node.dir g)) ∉ nodes l := by
    intro l n g hm
    unfold nodes at hm
    obtain ⟨q, _, hq⟩ := List.mem_map.mp hm
    simp only [Prod.mk.injEq] at hq
    cases h2 : q.2 with
    | none => rw [h2] at hq; exact absurd hq.2 (fun h => by cases h)
    | some b => rw [h2] at hq; exact absurd hq.2 (fun h => by cases h)
  have hnames : ∀ (l : List (Place Bytes)), (∀ q ∈ l, V8.Org.isElem q.1 = false) → ∀ n b, (n, some (Node.file b)) ∈ nodes l → V8.Org.isElem n = false := by
    intro l hl n b hm
    unfold nodes at hm
    obtain ⟨q, hq, he⟩ := List.mem_map.mp hm
    simp only [Prod.mk.injEq] at he
    rw [← he.1]
    exact hl q hq
  have htemp : ∀ (n : Text), '.' ∉ n → ∀ (t : Leaf), t.name = n → ∀ p, V8.Leaf.templateParts x t F info root = some p →
      (∀ n b, (n, some (Node.file b)) ∈ p.files → V8.Org.isElem n = false) ∧ ∀ n g, (n, some (Node.dir g)) ∈ p.files → ∃ u, F u = some (.dir g) := by
    intro n hn t ht p h
    unfold V8.Leaf.templateParts at h
    simp only [Option.bind_eq_some_iff, Option.map_eq_some_iff] at h
    obtain ⟨ty, _, q, hq, rfl⟩ := h
    refine ⟨hnames _ ?_, fun n g hm => absurd hm (hno _ n g)⟩
    rw [ht] at hq
    unfold V8.Leaf.dataParts at hq
    rw [Option.bind_eq_some_iff] at hq
    obtain ⟨f, _, hq⟩ := hq
    have two : ∀ {a b : Text} {fa fb : Option Bytes}, a.length ≤ 8 → b.length ≤ 8 → ∀ r ∈ [(dot n a, fa), (dot n b, fb)], V8.Org.isElem r.1 = false := by
      intro a b fa fb h1 h2 r hr
      rcases List.mem_cons.mp hr with rfl | hr
      · exact plain_ext hn h1
      · rcases List.mem_cons.mp hr with rfl | hr
        · exact plain_ext hn h2
        · cases hr
    have one : ∀ {a : Text} {fa : Option Bytes}, a.length ≤ 8 → ∀ r ∈ [(dot n a, fa)], V8.Org.isElem r.1 = false := by
      intro a fa h1 r hr
      rcases List.mem_cons.mp hr with rfl | hr
      · exact plain_ext hn h1
      · cases hr
    cases ty with
    | text =>
      simp only at hq
      cases f with
      | none => cases hq; exact one (by decide)
      | some b =>
        simp only [Option.map_eq_some_iff] at hq
        obtain ⟨_, _, rfl⟩ := hq
        exact one (by decide)
    | html =>
      simp only [Option.map_eq_some_iff] at hq
      obtain ⟨_, _, rfl⟩ := hq
      exact two (by decide) (by decide)
    | base64 =>
      simp only [Option.map_eq_some_iff] at hq
      obtain ⟨_, _, rfl⟩ := hq
      exact two (by decide) (hext _)
    | extension =>
      simp only [Option.map_eq_some_iff] at hq
      obtain ⟨_, _, rfl⟩ := hq
      exact two (by decide) (hext _)
    | table => cases hq; exact one (by decide)
    | active_doc => cases hq; exact one (by decide)
    | geographic => cases hq; exact one (by decide)
    | scheme => cases hq; exact one (by decide)
    | design => cases hq; exact one (by decide)
    | graphic_scheme => cases hq; exact one (by decide)
  unfold V8.Leaf.partsOut at h
  cases t with
  | picture =>
    simp only at h
    unfold V8.Leaf.pictureParts at h
    simp only [Option.bind_eq_some_iff, Option.map_eq_some_iff] at h
    obtain ⟨f, _, q, _, rfl⟩ := h
    refine ⟨hnames _ ?_, fun n g hm => absurd hm (hno _ n g)⟩
    intro r hr
    rcases List.mem_cons.mp hr with rfl | hr
    · exact plain_ext (by decide) (hext _)
    · cases hr
  | template => exact htemp _ (by decide) .template rfl p h
  | commonTemplate => exact htemp _ (by decide) .commonTemplate rfl p h
  | reference =>
    cases h
    refine ⟨fun n b hm => ?_, fun n g hm => ?_⟩
    · rcases List.mem_cons.mp hm with hm | hm
      · simp only [Prod.mk.injEq] at hm
        cases hF : F (dot info.uuid ['0']) with
        | none => rw [hF] at hm; exact absurd hm.2 (fun h => by cases h)
        | some nd => cases nd <;> (rw [hF] at hm; exact absurd hm.2 (fun h => by cases h))
      · cases hm
    · rcases List.mem_cons.mp hm with hm | hm
      · simp only [Prod.mk.injEq] at hm
        cases hF : F (dot info.uuid ['0']) with
        | none => rw [hF] at hm; exact absurd hm.2 (fun h => by cases h)
        | some nd =>
          cases nd with
          | file c => rw [hF] at hm; exact absurd hm.2 (fun h => by cases h)
          | dir g' =>
            rw [hF] at hm
            have e : g = g' := by
              have := Option.some.inj hm.2
              unfold dirOnly at this
              injection this
            rw [e]
            exact ⟨_, hF⟩
      · cases hm

theorem leaf_folder {x : Ext} {ver : Text} {t : Leaf} {F : Text → Option Node} {u : Text} {info : Info} {src : List (Place Node)}
    (hx : leafOut x ver t F u = some (info, src)) : (∃ b, folder src (objName t.name) = some (.file b)) ∧ (∀ m g, folder src m = some (.dir g) → ∃ u, F u = some (.dir g)) ∧
      ∀ n, V8.Org.isElem n = true → fileIn (folder src) n = none := by
  obtain ⟨b, d, c, hd, h', r, p, _, _, _, _, _, _, hp, rfl⟩ := leafOut_some hx
  obtain ⟨h1, h2⟩ := leaf_parts hp
  have hcases : ∀ n nd, folder (p.files ++ nodes [(idName t.name, some (fileOf x.win (idJson info []))),
      (objName t.name, some (fileOf x.win (.obj (written (V8.Leaf.places t c.2 p info r)))))]) n = some nd →
      (n, some nd) ∈ p.files ∨ (n = idName t.name ∨ n = objName t.name) ∧ ∃ b, nd = .file b := by
    intro n nd hf
    rcases List.mem_append.mp (folder_mem' hf) with hm | hm
    · exact .inl hm
    · right
      rcases List.mem_cons.mp hm with e | hm
      · cases e; exact ⟨.inl rfl, _, rfl⟩
      · rcases List.mem_cons.mp hm with e | hm
        · cases e; exact ⟨.inr rfl, _, rfl⟩
        · cases hm
  refine ⟨⟨fileOf x.win (.obj (written (V8.Leaf.places t c.2 p info r))), ?_⟩, fun m g hf => ?_, fun n hn => ?_⟩
  · show folder (p.files ++ ((idName t.name, some (Node.file _)) :: [(objName t.name, some (Node.file _))])) _ = _
    rw [show ∀ a : Place Node, p.files ++ (a :: [(objName t.name, some (Node.file (fileOf x.win (.obj (written (V8.Leaf.places t c.2 p info r))))))]) =
      (p.files ++ [a]) ++ [(objName t.name, some (Node.file (fileOf x.win (.obj (written (V8.Leaf.places t c.2 p info r))))))] from
        fun a => by rw [List.append_assoc]; rfl]
    exact folder_last _ _ _
  · rcases hcases m _ hf with hm | ⟨_, b, hb⟩
    · exact h2 m g hm
    · cases hb
  · cases hf : fileIn (folder (p.files ++ nodes [(idName t.name, some (fileOf x.win (idJson info []))),
      (objName t.name, some (fileOf x.win (.obj (written (V8.Leaf.places t c.2 p info r)))))])) n with
    | none => rfl
    | some b =>
      unfold fileIn at hf
      have hf' : folder (p.files ++ nodes [(idName t.name, some (fileOf x.win (idJson info []))),
        (objName t.name, some (fileOf x.win (.obj (written (V8.Leaf.places t c.2 p info r)))))]) n = some (.file b) := by
        split at hf
        · rename_i hq; cases hf; exact hq
        · cases hf
      rcases hcases n _ hf' with hm | ⟨hm, _⟩
      · rw [h1 n b hm] at hn; cases hn
      · have : V8.Org.isElem n = false := by
          rcases hm with rfl | rfl
          · cases t <;> decide
          · cases t <;> decide
        rw [this] at hn
        cases hn

theorem shape_leaf {x : Ext} {ver : Text} {t : Leaf} {h : Handler} {F : Text → Option Node} {u : Text} {info : Info} {src : List (Place Node)}
    (hx : leafOut x ver t F u = some (info, src)) (hk : h.kids = false) : Shape h F [] src := by
  obtain ⟨⟨b, h1⟩, h2, h3⟩ := leaf_folder hx
  exact ⟨⟨_, b, h1⟩, (fun h => by rw [hk] at h; cases h), fun _ => rfl, h2, fun n b hn hf => by rw [h3 n hn] at hf; cases hf⟩

theorem shape_form {x : Ext} {g : Lim} {con : Option Text} {f : FCls} {h : Handler} {F : Text → Option Node} {u : Text} {info : Info} {src : List (Place Node)}
    (hx : formOut x g con f F u = some (info, src)) (hk : h.kids = false)
    (hp : ∀ n ∈ [idName f.name, objName f.name, bslName f.name objWord, binName f.name objWord], V8.Org.isElem n = false) : Shape h F [] src := by
  obtain ⟨b, d, c, hd, h', r, ty, z, one, v, e, _, _, _, _, _, _, _, _, _, _, he, rfl⟩ := formOut_some hx
  refine ⟨⟨elemName f.name, fileOf x.win e.2, ?_⟩, (fun h => by rw [hk] at h; cases h), fun _ => rfl, fun m g hf => absurd hf (nodes_flat _ m g), fun n b hn hf => ?_⟩
  · rw [folder_nodes]
    rw [show folder [(idName f.name, some (fileOf x.win (idJson info []))),
                (objName f.name, some (fileOf x.win (.obj (written (V8.FormObj.places c.2 info r (V8.FormObj.formPlaces ty z e.1 v.1)))))),
                (bslName f.name objWord, (V8.FormObj.codeFiles x.win z).1), (binName f.name objWord, (V8.FormObj.codeFiles x.win z).2),
                (elemName f.name, some (fileOf x.win e.2))] (elemName f.name) = some (fileOf x.win e.2) from folder_last [_, _, _, _] _ _]
    rfl
  · rw [fileIn_folder] at hf
    have hm := folder_mem' hf
    obtain ⟨w, es, hes⟩ := elemsOut_file he
    rcases List.mem_cons.mp hm with q | hm
    · simp only [Prod.mk.injEq] at q
      rw [q.1, hp _ List.mem_cons_self] at hn
      cases hn
    rcases List.mem_cons.mp hm with q | hm
    · simp only [Prod.mk.injEq] at q
      rw [q.1, hp _ (List.mem_cons_of_mem _ List.mem_cons_self)] at hn
      cases hn
    rcases List.mem_cons.mp hm with q | hm
    · simp only [Prod.mk.injEq] at q
      rw [q.1, hp _ (List.mem_cons_of_mem _ (List.mem_cons_of_mem _ List.mem_cons_self))] at hn
      cases hn
    rcases List.mem_cons.mp hm with q | hm
    · simp only [Prod.mk.injEq] at q
      rw [q.1, hp _ (List.mem_cons_of_mem _ (List.mem_cons_of_mem _ (List.mem_cons_of_mem _ List.mem_cons_self)))] at hn
      cases hn
    rcases List.mem_cons.mp hm with q | hm
    · simp only [Prod.mk.injEq] at q
      exact ⟨x.win, e.2, es, w, Option.some.inj q.2, hes⟩
    · cases hm

/-- the handlers -/
theorem shape_of {C : Text → Option Class} {g : Lim} {x : Ext} {y : Bld} {ver ty : Text} {h : Handler} {con : Option Text} {F : Text → Option Node} {v : Val}
    {info : Info} {os : List Obj} {src : List (Place Node)} (hC : ClassesOk C) (hN : PlainNames C) (hk : handlers C g x y ver ty = some h)
    (ho : h.out con F v = some (info, os, src)) : Shape h F os src := by
  unfold handlers at hk
  rw [Option.map_eq_some_iff] at hk
  obtain ⟨c, hc, rfl⟩ := hk
  cases c with
  | file k =>
    cases v with
    | str u =>
      have ho' : (extractAll x k (some ver) F u).map (fun r => (r.1, r.2.1, nodes r.2.2)) = some (info, os, src) := ho
      rw [Option.map_eq_some_iff] at ho'
      obtain ⟨⟨i, o, s⟩, h1, h2⟩ := ho'
      simp only [Prod.mk.injEq] at h2
      obtain ⟨rfl, rfl, rfl⟩ := h2
      have hk : (Class.file k).kindAt .none = some k := rfl
      obtain ⟨h3, h4⟩ := extractAll_src h1
      exact shape_parts h3 (hN.file _ _ _ _ hc hk) (extractAll_has (hC.file _ _ _ _ hc hk) h1) h4
    | none => cases ho
    | list l => cases ho
  | pick n k rest =>
    cases v with
    | str u =>
      have ho' : (match F u with
          | some (.file b) => (braceRead b).bind (fun d => ((Class.pick n k rest).kindAt (rootVal d)).bind (fun k' =>
              (extractAll x k' (some ver) F u).map (fun r => (r.1, r.2.1, nodes r.2.2))))
          | _ => none) = some (info, os, src) := ho
      cases hF : F u with
      | none => rw [hF] at ho'; cases ho'
      | some nd =>
        rw [hF] at ho'
        cases nd with
        | dir _ => cases ho'
        | file b =>
          simp only [Option.bind_eq_some_iff, Option.map_eq_some_iff] at ho'
          obtain ⟨d, _, k', hk', ⟨i, o, s⟩, h1, h2⟩ := ho'
          simp only [Prod.mk.injEq] at h2
          obtain ⟨rfl, rfl, rfl⟩ := h2
          obtain ⟨h3, h4⟩ := extractAll_src h1
          refine shape_parts h3 (hN.file _ _ _ _ hc hk') (extractAll_has (hC.file _ _ _ _ hc hk') h1) (fun hh => h4 ?_)
          rw [kids_at hk'] at hh
          exact hh
    | none => cases ho
    | list l => cases ho
  | inner k =>
    cases v with
    | list l =>
      have ho' : (innerAll x k F (.list l)).map (fun r => (r.1, ([] : List Obj), nodes r.2)) = some (info, os, src) := ho
      rw [Option.map_eq_some_iff] at ho'
      obtain ⟨⟨i, s⟩, h1, h2⟩ := ho'
      simp only [Prod.mk.injEq] at h2
      obtain ⟨rfl, rfl, rfl⟩ := h2
      exact shape_parts (innerAll_src h1) (hN.inner _ _ hc) (innerAll_some (hC.inner _ _ hc).1 h1).1 (fun _ => rfl)
    | none => cases ho
    | str u => cases ho
  | leaf t =>
    cases v with
    | str u =>
      obtain ⟨h1, h2⟩ := leaf_out ho
      simp only at h1 h2
      rw [h2]
      exact shape_leaf h1 rfl
    | none => cases ho
    | list l => cases ho
  | form f =>
    cases v with
    | str u =>
      obtain ⟨h1, h2⟩ := form_out ho
      simp only at h1 h2
      rw [h2]
      exact shape_form h1 rfl (hN.form _ _ hc)
    | none => cases ho
    | list l => cases ho

/-! ### the whole tree -/

/-- the folders among the files of the container are not empty and hold no file that looks like a file of elements -/
def DirsOk (F : Text → Option Node) : Prop :=
  ∀ u g, F u = some (.dir g) → (∃ n, g n ≠ none) ∧ ∀ n, V8.Org.isElem n = true → g n = none

theorem kids_mem {f : Text → Val → Option (Info × V8.Tree.Dir)} : ∀ {os : List Obj} {subs : List (Text × Text × V8.Tree.Dir)}, extractKids f os = some subs →
    ∀ q ∈ subs, ∃ o ∈ os, ∃ info, q.1 = o.ty ∧ f o.ty o.orig = some (info, q.2.2)
  | [], subs, h, q, hq => by rw [extractKids] at h; cases h; cases hq
  | o :: r, subs, h, q, hq => by
    rw [extractKids] at h
    simp only [Option.bind_eq_some_iff, Option.map_eq_some_iff] at h
    obtain ⟨a, ha, b, hb, rfl⟩ := h
    rcases List.mem_cons.mp hq with rfl | hq
    · exact ⟨o, List.mem_cons_self, a.1, rfl, ha⟩
    · obtain ⟨o', h1, h2⟩ := kids_mem hb q hq
      exact ⟨o', List.mem_cons_of_mem _ h1, h2⟩

theorem neat_of {C : Text → Option Class} {g : Lim} {x : Ext} {y : Bld} {ver : Text} {F : Text → Option Node} (hC : ClassesOk C) (hN : PlainNames C) (hF : DirsOk F) :
    ∀ (n : Nat) (con : Option Text) (ty : Text) (v : Val) (info : Info) (dir : V8.Tree.Dir), extractTree (handlers C g x y ver) F n con ty v = some (info, dir) →
      Neat (handlers C g x y ver) ty dir ∧ ∀ p m b, InDir dir p m b → V8.Org.isElem m = true → ElemFile b
  | 0, con, ty, v, info, dir, h => by rw [extractTree] at h; cases h
  | n + 1, con, ty, v, info, dir, h => by
    rw [extractTree] at h
    simp only [Option.bind_eq_some_iff] at h
    obtain ⟨k, hk, ⟨i, os, src⟩, hout, subs, hsubs, h⟩ := h
    by_cases hn : (subs.map (fun s => (s.1, s.2.1))).Nodup
    case neg => rw [if_neg hn] at h; cases h
    rw [if_pos hn] at h
    cases h
    have hsh := shape_of hC hN hk hout
    have hrec : ∀ q ∈ subs, Neat (handlers C g x y ver) q.1 q.2.2 ∧ ∀ p m b, InDir q.2.2 p m b → V8.Org.isElem m = true → ElemFile b := by
      intro q hq
      obtain ⟨o, _, info', h1, h2⟩ := kids_mem hsubs q hq
      rw [h1]
      exact neat_of hC hN hF n _ _ _ _ _ h2
    constructor
    · cases hkk : k.kids with
      | false =>
        have hos := hsh.leaf hkk
        simp only at hsubs
        rw [hos, extractKids] at hsubs
        cases hsubs
        exact .simple hk hkk hsh.any (fun m g hm => by
          obtain ⟨u, hu⟩ := hsh.dirs m g hm
          exact hF u g hu)
      | true =>
        refine .full (fun h' hk' => ?_) hsh.any (hsh.flat hkk) ?_ ?_
        · rw [hk] at hk'
          cases hk'
          exact hkk
        · rw [subs_ofList]; exact hn
        · rw [subs_ofList]; exact fun q hq => (hrec q hq).1
    · intro p m b hin hm
      generalize hd : V8.Tree.Dir.mk src (.ofList subs) = d at hin
      cases hin with
      | own hf =>
        cases hd
        exact hsh.elems m b hm (fileIn_of (b := some b) hf)
      | copied hf hg =>
        cases hd
        obtain ⟨u, hu⟩ := hsh.dirs _ _ hf
        rw [(hF u _ hu).2 m hm] at hg
        cases hg
      | nested hq hin =>
        cases hd
        rw [subs_ofList] at hq
        exact (hrec _ hq).2 _ m b hin hm

end V8.Pipe
