import Verif.FormArea
/-
C30 (managed forms are put together as they were), C45 (a form that cannot be taken apart is kept).
Model: Verif/Form.lean.

`decodeForm depth parent raw` is what extraction makes of the data of a form: the data that stay in the form and the sources
(`<form>.elem.json`).  `encodeForm depth parent raw' src` is what the build makes of them.  `places [] src.tree` lists every element of the
tree with the path of its parent.
-/
namespace V8.Form
open V8.Brace V8.Dec V8.Module

/-- an element belongs to an include area: one of the groups above it, or it itself, is called `include_…` or `includr_…` -/
def InArea (path name : Text) : Prop := occurs include' (key path name) = true ∨ occurs includr (key path name) = true

/-- the entry of an element in an include area is in the usual form: the name is quoted in the usual way, the link to an attribute is a list of
identifiers, the link to a command is the one the command itself states -/
structure Usual (src : Src) (k : Kind) (d : Data) : Prop where
  name : ∀ i tok, calcOffset d.raw k.name 0 = some i → d.raw[i]? = some (.str tok) → strEncode (strDecode tok) = tok
  prop : ∀ cs i link, k.prop = some cs → calcOffset d.raw cs 0 = some i → d.raw[i]? = some link → truthy link = true → LinkOk link
  command : ∀ cs i link, k.command = some cs → calcOffset d.raw cs 0 = some i → d.raw[i]? = some link → truthy link = true →
    ∀ l r, src.commands = some l → r ∈ l → idx link 0 = some r.id → idx r.raw 1 = some link

/-- **C30** (partial): taking a managed form apart and putting it together gives the original form, for every number and nesting of elements,
attributes, commands and parameters, provided that
* no two elements have the same path;
* `includr_` stands in names of groups only at the beginning, and not in names of tables;
* attributes and commands of the form have different names, and elements in include areas are in the usual form;
* the slots of the form do not already hold one of the words the program puts there, and the attributes could be taken out or were left as
  they are. -/
theorem C30_managed_form_round_trip_partial (depth : Nat) (parent : Option Text) (raw raw' : List Val) (src : Src)
    (h : decodeForm depth parent raw = some (raw', src))
    (paths : (src.data.map (·.1)).Nodup)
    (names : ∀ pl ∈ places [] src.tree, pl.2.2.child ≠ none → NameOk pl.2.2 pl.2.1)
    (areas : ∀ pl ∈ places [] src.tree, InArea pl.1 pl.2.1 →
      ((propsByName src.props).map (·.1)).Nodup ∧ (∀ C, commandsByName src.commands = some C → (C.map (·.1)).Nodup) ∧
      ∀ d, (key pl.1 pl.2.1, d) ∈ src.data → Usual src pl.2.2 d)
    (slot3 : SlotOk raw 3) (slot4 : SlotOk raw 4) (slot5 : SlotOk raw 5)
    (words : ∀ v, raw[3]? = some (.list v) → ∀ x ∈ v, NoWord x) (parentGiven : parent ≠ some [])
    (props : src.props = none → raw'[3]? = raw[3]?) :
    encodeForm depth parent raw' src = some raw := by
  refine form_rt depth parent raw raw' src h parentGiven slot3 slot4 slot5 words props paths ?_
  intro C hC pl hpl
  refine ⟨names pl hpl, ?_⟩
  intro d hd
  obtain ⟨root, i, P0, C0, root', _, _, hP, hC0, hl, _⟩ := decodeForm_some depth parent raw raw' src h
  obtain ⟨d', hd', hread⟩ := list_read (decodeElem P0 C0 depth []) [] (fun pl d => Read P0 C0 pl.2.2 pl.2.1 d)
    (fun pl => pl.2.2.child ≠ none → NameOk pl.2.2 pl.2.1)
    (fun k raw node es h hR => elem_read P0 C0 depth [] k raw node es h rfl hR)
    (fun k raw node es h => decodeElem_node _ _ _ _ k raw node es h) i root root' src.tree src.data hl names pl hpl
  have := dictGet_mem src.data paths _ hd'
  simp only at this
  rw [hd] at this
  cases this
  by_cases ha : InArea pl.1 pl.2.1
  · obtain ⟨n1, n2, n3⟩ := areas pl hpl ha
    have hu := n3 d hd'
    exact relink_same src.props src.commands P0 hP C0 hC0 C hC n1 (n2 C hC) pl.2.2 pl.2.1 _ d hread.1 hread.2.1 hread.2.2 hu.name hu.prop hu.command
  · have h1 : occurs include' (key pl.1 pl.2.1) = false := by
      cases hx : occurs include' (key pl.1 pl.2.1) with
      | false => rfl
      | true => exact absurd (Or.inl hx) ha
    have h2 : occurs includr (key pl.1 pl.2.1) = false := by
      cases hx : occurs includr (key pl.1 pl.2.1) with
      | false => rfl
      | true => exact absurd (Or.inr hx) ha
    exact relink_plain _ _ _ _ _ _ h1 h2

/-- the same for forms without include areas -/
theorem C30_managed_form_round_trip_plain (depth : Nat) (parent : Option Text) (raw raw' : List Val) (src : Src)
    (h : decodeForm depth parent raw = some (raw', src))
    (paths : (src.data.map (·.1)).Nodup)
    (plain : ∀ pl ∈ places [] src.tree, ¬ InArea pl.1 pl.2.1 ∧ occurs includr pl.2.1 = false)
    (slot3 : SlotOk raw 3) (slot4 : SlotOk raw 4) (slot5 : SlotOk raw 5)
    (words : ∀ v, raw[3]? = some (.list v) → ∀ x ∈ v, NoWord x) (parentGiven : parent ≠ some [])
    (props : src.props = none → raw'[3]? = raw[3]?) :
    encodeForm depth parent raw' src = some raw := by
  refine C30_managed_form_round_trip_partial depth parent raw raw' src h paths ?_ ?_ slot3 slot4 slot5 words parentGiven props
  · intro pl hpl _
    have := (plain pl hpl).2
    cases hk : pl.2.2 with
    | group => exact occurs_drop includr 1 _ this
    | field => exact this
    | button => exact this
    | decoration => exact this
    | table => exact this
    | itemAddition => exact this
  · intro pl hpl ha
    exact absurd ha (plain pl hpl).1

/-! ### examples -/

/-- a text token of the form data -/
def tok (s : List Char) : Val := .str ('"' :: s ++ ['"'])
/-- a number -/
def num (n : Nat) : Val := .str (showNat n)

/-- a button: three entries, a counter, then the name two entries further on, the link to a command three further on -/
def button (name : List Char) (link : Val) : List Val := [num 0, num 0, num 0, num 0, num 0, tok name, num 0, num 0, link]

/-- a group with nested elements: the name is the seventh entry, the counter of the nested elements the twenty-second -/
def group (name : List Char) (nested : List Val) (n : Nat) : List Val :=
  [.str ['2', '2'], num 0, num 0, num 0, num 0, num 0, tok name] ++ List.replicate 14 (num 7) ++ (num n :: nested) ++ [num 9, num 8]

/-- a form with the given elements, attributes, parameters and commands -/
def mkForm (elems : List Val) (n : Nat) (props params commands : Val) : List Val :=
  [num 4, .list (List.replicate 18 (num 1) ++ [num 0, num 0, num 0, num 1, num 5, num n] ++ elems ++ [num 6]), num 2, props, params, commands, num 3]

/-- an attribute with `n` nested ones -/
def attr (name : List Char) (id : Nat) (pattern : Val) (nested : List Val) : Val :=
  .list ([num 9, .list [num id], num 0, tok name, num 0, pattern] ++ List.replicate 7 (num 1) ++ num nested.length :: nested ++ [num 2])

def sub (name : List Char) (id : Nat) : Val := .list [num 0, num id, num 0, tok name]

def command (name : List Char) (link : Val) : Val := .list [num 0, link, tok name, num 5]

/-- a form with a group, nested elements, a reference to the owner, nested attributes, parameters and commands -/
def sample : List Val :=
  mkForm [.str Kind.group.uuid, .list (group ['G'] [.str Kind.button.uuid, .list (button ['A'] (.list [num 3])),
      .str Kind.button.uuid, .list (button ['B'] (.str []))] 2),
      .str Kind.button.uuid, .list (button ['A'] (.str []))] 2
    (.list [num 5, num 2, attr ['P'] 1 (.list [tok ['P'], .list [.str refWord, .str ['u']]]) [sub ['x'] 7, sub ['y'] 8],
      attr ['Q'] 2 (.list [tok ['P']]) []])
    (.list [num 0, num 1, .list [num 0, tok ['R']]])
    (.list [num 0, num 1, command ['C'] (.list [num 3])])

/-- the sources of a form, for checking examples -/
def keysOf (r : Option (List Val × Src)) : Option (List Text) := r.map (fun x => x.2.data.map (·.1))

set_option maxRecDepth 20000 in
/-- the sample is taken apart (nested elements under their own paths) and put together again -/
example : keysOf (decodeForm 9 (some ['u']) sample) = some [['G'], ['G', '/', 'A'], ['G', '/', 'B'], ['A']] ∧
    (decodeForm 9 (some ['u']) sample).bind (fun r => encodeForm 9 (some ['u']) r.1 r.2) = some sample := by
  decide +kernel

set_option maxRecDepth 20000 in
/-- the conditions of the theorem about slots and words hold for the sample -/
example : SlotOk sample 3 ∧ SlotOk sample 4 ∧ SlotOk sample 5 := by
  refine ⟨?_, ?_, ?_⟩ <;> intro v hv <;> cases hv <;> refine ⟨_, rfl, ?_⟩ <;> decide +kernel

instance (path name : Text) : Decidable (InArea path name) := inferInstanceAs (Decidable (_ ∨ _))

instance (k : Kind) (name : Text) : Decidable (NameOk k name) := by
  cases k <;> exact inferInstanceAs (Decidable (_ = _))

set_option maxRecDepth 20000 in
theorem sample_some : (decodeForm 9 (some ['u']) sample).isSome = true := by decide +kernel

set_option maxRecDepth 20000 in
/-- all other conditions of `C30_managed_form_round_trip_plain` hold for the sample -/
example : ∃ raw' src, decodeForm 9 (some ['u']) sample = some (raw', src) ∧ (src.data.map (·.1)).Nodup ∧
    (∀ pl ∈ places [] src.tree, ¬ InArea pl.1 pl.2.1 ∧ occurs includr pl.2.1 = false) ∧ (places [] src.tree).length = 4 ∧
    (∀ v, sample[3]? = some (.list v) → ∀ x ∈ v, NoWord x) ∧ (src.props = none → raw'[3]? = sample[3]?) := by
  refine ⟨((decodeForm 9 (some ['u']) sample).get sample_some).1, ((decodeForm 9 (some ['u']) sample).get sample_some).2, (Option.some_get sample_some).symm, by decide +kernel,
    by decide +kernel, by decide +kernel, ?_, by decide +kernel⟩
  intro v hv x hx pattern hp
  cases hv
  simp only [List.mem_cons, List.not_mem_nil, or_false] at hx
  rcases hx with rfl | rfl | rfl | rfl
  · have : idx (num 5) 5 = none := by decide +kernel
    rw [this] at hp; cases hp
  · have : idx (num 2) 5 = none := by decide +kernel
    rw [this] at hp; cases hp
  · cases hp
    rintro ⟨p0, rest, more, h⟩
    have : (Val.list [tok ['P'], .list [.str refWord, .str ['u']]]) = .list (p0 :: .list (.str refWord :: .str parentWord :: rest) :: more) := h
    simp only [Val.list.injEq, List.cons.injEq, Val.str.injEq] at this
    have h2 := this.2.1.2.1
    revert h2
    decide +kernel
  · cases hp
    rintro ⟨p0, rest, more, h⟩
    have : (Val.list [tok ['P']]) = .list (p0 :: .list (.str refWord :: .str parentWord :: rest) :: more) := h
    simp only [Val.list.injEq, List.cons.injEq] at this
    exact absurd this.2 (by simp)

/-- **C30, a table** of the version 55 is taken apart only if it has 99 values besides those that its three counters (the value 4, the one 50 places after
the values that the first counts, the one 7 places after the pairs that the second counts) announce -/
theorem C30_table_size (raw : List Val) (a b c : Nat) (h0 : raw[0]? = some (.str "55".toList)) (ha : countAt raw 4 = some a)
    (hb : countAt raw (4 + a + 50) = some b) (hc : countAt raw (4 + a + 50 + 2 * b + 7) = some c) :
    sizeOk .table raw = true ↔ raw.length = 99 + a + 2 * b + 2 * c := by
  have e : checkCount raw [(4, 1), (50, 2), (7, 2)] 0 0 = some (raw.length - (a + 2 * b + 2 * c)) := by
    simp only [checkCount]
    rw [if_neg (by decide), show 0 + 4 = 4 from rfl, ha]
    simp only
    rw [if_neg (by decide), show 4 + a * 1 + 50 = 4 + a + 50 by omega, hb]
    simp only
    rw [if_neg (by decide), show 4 + a + 50 + b * 2 + 7 = 4 + a + 50 + 2 * b + 7 by omega, hc]
    simp only
    congr 1
    omega
  unfold sizeOk headIs
  simp only [e]
  rw [h0, decide_eq_true (by decide), Bool.true_and, Bool.not_eq_true', decide_eq_false_iff_not]
  omega

/-- **C30, a group** of the version 22 is taken apart only if it has at least 20 values besides those that its three counters announce -/
theorem C30_group_size (raw : List Val) (a b c : Nat) (h0 : raw[0]? = some (.str "22".toList)) (ha : countAt raw 3 = some a)
    (hb : countAt raw (3 + a + 1) = some b) (hc : countAt raw (3 + a + 1 + b + 17) = some c) :
    sizeOk .group raw = true ↔ 20 + a + b + 2 * c ≤ raw.length := by
  have e : checkCount raw [(3, 1), (1, 1), (17, 2)] 0 0 = some (raw.length - (a + b + 2 * c)) := by
    simp only [checkCount]
    rw [if_neg (by decide), show 0 + 3 = 3 from rfl, ha]
    simp only
    rw [if_neg (by decide), show 3 + a * 1 + 1 = 3 + a + 1 by omega, hb]
    simp only
    rw [if_neg (by decide), show 3 + a + 1 + b * 1 + 17 = 3 + a + 1 + b + 17 by omega, hc]
    simp only
    congr 1
    omega
  unfold sizeOk headIs
  simp only [e]
  rw [h0, decide_eq_true (by decide), Bool.true_and, Bool.not_eq_true', decide_eq_false_iff_not]
  omega

set_option maxRecDepth 20000 in
/-- the group of the sample is one -/
example : (group ['G'] [num 1, num 2, num 3, num 4] 2)[0]? = some (.str "22".toList) ∧ countAt (group ['G'] [num 1, num 2, num 3, num 4] 2) 3 = some 0 ∧
    countAt (group ['G'] [num 1, num 2, num 3, num 4] 2) 4 = some 0 ∧ countAt (group ['G'] [num 1, num 2, num 3, num 4] 2) 21 = some 2 := by decide +kernel

/-- an include area with an element that refers to a command and one that refers to a nested attribute -/
def field (name : List Char) (link : Val) : List Val :=
  [num 0, num 0, num 0, num 0, num 0, num 0, tok name, num 0, num 0, num 0, num 0, link]

def areaSample : List Val :=
  mkForm [.str Kind.group.uuid, .list (group ("includr_G".toList) [.str Kind.button.uuid, .list (button ['A'] (.list [num 3])),
      .str Kind.field.uuid, .list (field ['F'] (.list [num 2, .list [num 1], .list [num 8]]))] 2)] 1
    (.list [num 5, num 1, attr ['P'] 1 (.list [tok ['P']]) [sub ['x'] 7, sub ['y'] 8]])
    (.list [num 0, num 0])
    (.list [num 0, num 1, command ['C'] (.list [num 3])])

set_option maxRecDepth 20000 in
/-- elements of the area are stored under the path of the area, and the form comes back -/
example : keysOf (decodeForm 9 none areaSample) = some ["includr_G".toList, "include_G/A".toList, "include_G/F".toList] ∧
    (decodeForm 9 none areaSample).bind (fun r => encodeForm 9 none r.1 r.2) = some areaSample := by
  decide +kernel

set_option maxRecDepth 20000 in
theorem areaSample_some : (decodeForm 9 none areaSample).isSome = true := by decide +kernel

set_option maxRecDepth 20000 in
/-- the conditions of `C30_managed_form_round_trip_partial` about names and paths hold for it, and its three elements are in the area -/
example : ∃ raw' src, decodeForm 9 none areaSample = some (raw', src) ∧ (src.data.map (·.1)).Nodup ∧
    (∀ pl ∈ places [] src.tree, pl.2.2.child ≠ none → NameOk pl.2.2 pl.2.1) ∧
    (∀ pl ∈ places [] src.tree, InArea pl.1 pl.2.1) ∧ (places [] src.tree).length = 3 ∧
    ((propsByName src.props).map (·.1)).Nodup ∧ (∀ C, commandsByName src.commands = some C → (C.map (·.1)).Nodup) := by
  refine ⟨((decodeForm 9 none areaSample).get areaSample_some).1, ((decodeForm 9 none areaSample).get areaSample_some).2, (Option.some_get areaSample_some).symm, by decide +kernel,
    by decide +kernel, by decide +kernel, by decide +kernel, by decide +kernel, ?_⟩
  have hc : commandsByName ((decodeForm 9 none areaSample).get areaSample_some).2.commands = some [(['C'], .list [num 3])] := by decide +kernel
  intro C hC
  rw [hc] at hC
  cases hC
  decide +kernel

/-- the entry of the field of the area is in the usual form -/
example : Usual ⟨none, none, none, [], []⟩ .field ⟨field ['F'] (.list [num 2, .list [num 1], .list [num 8]]), some ['P', '.', 'y'], none⟩ := by
  have hcount : countAt (field ['F'] (.list [num 2, .list [num 1], .list [num 8]])) 3 = some 0 := by decide +kernel
  have hcount2 : countAt (field ['F'] (.list [num 2, .list [num 1], .list [num 8]])) 4 = some 0 := by decide +kernel
  refine ⟨?_, ?_, (fun cs i link h => by cases h)⟩
  · intro i t hi ht
    simp only [Kind.name, calcOffset, Nat.reduceEqDiff, if_false, if_true, Nat.zero_add, hcount, Nat.zero_mul, Nat.add_zero, hcount2] at hi
    cases hi
    cases ht
    decide +kernel
  · intro cs i link hk hi hl _
    cases hk
    simp only [calcOffset, Nat.reduceEqDiff, if_false, if_true, Nat.zero_add, hcount, Nat.zero_mul, Nat.add_zero, hcount2] at hi
    cases hi
    cases hl
    exact ⟨num 2, [num 1, num 8], rfl, by decide +kernel⟩

/-! ### what goes wrong without the conditions -/

set_option maxRecDepth 20000 in
/-- **C30**, two elements with the same path: the build puts the second one in place of both -/
theorem C30_same_path_lost_neg : ∃ raw raw'' : List Val, raw ≠ raw'' ∧
    (decodeForm 9 none raw).bind (fun r => encodeForm 9 none r.1 r.2) = some raw'' :=
  ⟨mkForm [.str Kind.button.uuid, .list (button ['A'] (.list [])), .str Kind.button.uuid, .list (button ['A'] (.str []))] 2 (.list [num 0, num 0])
      (.list [num 0, num 0]) (.list [num 0, num 0]),
    mkForm [.str Kind.button.uuid, .list (button ['A'] (.str [])), .str Kind.button.uuid, .list (button ['A'] (.str []))] 2 (.list [num 0, num 0])
      (.list [num 0, num 0]) (.list [num 0, num 0]), by decide +kernel⟩

set_option maxRecDepth 20000 in
/-- **C30**, a group with `includr_` inside its name: the nested elements are stored under another path than the build looks for -/
theorem C30_includr_inside_name_neg : ∃ raw : List Val, (decodeForm 9 none raw).isSome = true ∧
    (decodeForm 9 none raw).bind (fun r => encodeForm 9 none r.1 r.2) = none :=
  ⟨mkForm [.str Kind.group.uuid, .list (group ("Xincludr_".toList) [.str Kind.button.uuid, .list (button ['A'] (.list []))] 1)] 1
    (.list [num 0, num 0]) (.list [num 0, num 0]) (.list [num 0, num 0]), by decide +kernel⟩

set_option maxRecDepth 20000 in
/-- **C30**, an element of an include area whose link carries more than the identifiers: the rest is lost -/
theorem C30_area_link_truncated_neg : ∃ raw raw'' : List Val, raw ≠ raw'' ∧
    (decodeForm 9 none raw).bind (fun r => encodeForm 9 none r.1 r.2) = some raw'' :=
  ⟨mkForm [.str Kind.group.uuid, .list (group ("include_G".toList)
      [.str Kind.field.uuid, .list (field ['F'] (.list [num 1, .list [num 1, num 77]]))] 1)] 1
      (.list [num 5, num 1, attr ['P'] 1 (.list [tok ['P']]) []]) (.list [num 0, num 0]) (.list [num 0, num 0]),
    mkForm [.str Kind.group.uuid, .list (group ("include_G".toList)
      [.str Kind.field.uuid, .list (field ['F'] (.list [num 1, .list [num 1]]))] 1)] 1
      (.list [num 5, num 1, attr ['P'] 1 (.list [tok ['P']]) []]) (.list [num 0, num 0]) (.list [num 0, num 0]), by decide +kernel⟩

set_option maxRecDepth 20000 in
/-- **C30**, an attribute that cannot be read: the exception is swallowed, but the attributes before it have already been changed; the
nested attributes of `P` are gone for good -/
theorem C30_unread_attribute_loses_data_neg : ∃ raw raw'' : List Val, raw ≠ raw'' ∧
    (decodeForm 9 none raw).bind (fun r => encodeForm 9 none r.1 r.2) = some raw'' :=
  ⟨mkForm [] 0 (.list [num 5, num 2, attr ['P'] 1 (.list [tok ['P']]) [sub ['x'] 7, sub ['y'] 8], .str []]) (.list [num 0, num 0])
      (.list [num 0, num 0]),
    mkForm [] 0 (.list [num 5, num 2, .list ([num 9, .list [num 1], num 0, tok ['P'], num 0, .list [tok ['P']]] ++ List.replicate 7 (num 1) ++
      [.str apart, num 2]), .str []]) (.list [num 0, num 0]) (.list [num 0, num 0]), by decide +kernel⟩

/-! ### C45 -/

/-- **C45**, what is written when a form cannot be taken apart: the form as it was read -/
theorem C45_failed_form_kept (depth : Nat) (parent : Option Text) (raw : List Val) (left : Src) (h : decodeForm depth parent raw = none) :
    (takeApart depth parent raw left).1 = raw := by
  rw [takeApart, h]

/-- **C45** (partial): building a form that could not be taken apart gives the form as it was read, whatever sources were left behind, provided
that the place of the elements can be found and neither it nor the slots of attributes, parameters and commands hold the word the program
puts there -/
theorem C45_failed_form_builds_partial (depth depth' : Nat) (parent parent' : Option Text) (raw : List Val) (left : Src)
    (h : decodeForm depth parent raw = none) (slot3 : SlotOk raw 3) (slot4 : SlotOk raw 4) (slot5 : SlotOk raw 5)
    (elems : ∃ root i v, rootOf raw = some root ∧ elemIndex root = some i ∧ root[i]? = some v ∧ v ≠ .str marker) :
    encodeForm depth' parent' (takeApart depth parent raw left).1 (takeApart depth parent raw left).2 = some raw := by
  have hslot : ∀ {α : Type} (f : α → Option Val) (i : Nat) (items : Option (List α)), SlotOk raw i → slotIn f i items raw = some (raw, none) := by
    intro α f i items hs
    rw [slotIn]
    cases hv : raw[i]? with
    | none => rfl
    | some v =>
      obtain ⟨m, h1, h2⟩ := hs v hv
      simp only [h1]
      rw [if_neg h2]
  obtain ⟨root, i, v, h1, h2, h3, h4⟩ := elems
  rw [takeApart, h]
  simp only
  rw [encodeForm, hslot _ 5 _ slot5]
  simp only
  rw [hslot _ 3 _ slot3]
  simp only [commandsByName]
  rw [encodeElements, h1]
  simp only
  rw [h2]
  simp only
  rw [h3]
  simp only
  rw [if_neg h4]
  simp only
  rw [hslot _ 4 _ slot4]
  rfl

set_option maxRecDepth 20000 in
/-- a form with an element of an unknown kind after a known one meets the conditions -/
example : ∃ raw : List Val, decodeForm 9 none raw = none ∧ SlotOk raw 3 ∧ SlotOk raw 4 ∧ SlotOk raw 5 ∧
    (∃ root i v, rootOf raw = some root ∧ elemIndex root = some i ∧ root[i]? = some v ∧ v ≠ .str marker) := by
  refine ⟨mkForm [.str Kind.button.uuid, .list (button ['A'] (.list [])), .str ['?'], .list []] 2 (.list [num 0, num 0]) (.list [num 0, num 0])
    (.list [num 0, num 0]), ?_, ?_, ?_, ?_, ?_⟩
  · have : (decodeForm 9 none (mkForm [.str Kind.button.uuid, .list (button ['A'] (.list [])), .str ['?'], .list []] 2 (.list [num 0, num 0])
      (.list [num 0, num 0]) (.list [num 0, num 0]))).isNone = true := by decide +kernel
    simpa using this
  all_goals try (intro v hv; cases hv; exact ⟨_, rfl, by decide +kernel⟩)
  exact ⟨_, 23, num 2, rfl, by decide +kernel, by decide +kernel, by decide +kernel⟩

set_option maxRecDepth 20000 in
/-- **C45**, a form whose place of elements cannot be found is kept on extraction, but cannot be built, with any sources -/
theorem C45_unfound_elements_unbuildable_neg : ∃ raw : List Val, (∀ depth parent, decodeForm depth parent raw = none) ∧
    ∀ depth parent src, encodeForm depth parent raw src = none := by
  refine ⟨[num 4, .list [num 0], num 2], ?_, ?_⟩
  · intro depth parent; rfl
  · intro depth parent src
    rfl

/-- **C45**, whatever the rest of the form and the sources are: a form whose slot of commands is there but has less than two entries cannot be
built … -/
theorem C45_short_slot_unbuildable_neg (raw : List Val) (v : Val) (h : raw[5]? = some v) (hv : idx v 1 = none) (depth : Nat)
    (parent : Option Text) (src : Src) : encodeForm depth parent raw src = none := by
  rw [encodeForm, slotIn, h]
  simp only [hv]

set_option maxRecDepth 20000 in
/-- … although extraction takes such a form without an error -/
theorem C45_short_slot_extracted_neg : ∃ (raw raw' : List Val) (v : Val), (decodeForm 9 none raw).map (·.1) = some raw' ∧ raw'[5]? = some v ∧ idx v 1 = none :=
  ⟨mkForm [] 0 (.list [num 0, num 0]) (.list [num 0, num 0]) (.list []), mkForm [] 0 (.list [num 0, num 0]) (.list [num 0, num 0]) (.list []),
    .list [], by decide +kernel⟩

end V8.Form
