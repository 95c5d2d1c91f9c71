import Verif.NestedLemmas
/-
C57: the lists of nested objects inside the raw data of an object survive extraction and build.

`decodeInclude E auto inc` is extraction: `inc` is the raw list `[.., .., number of lists, list, list, ...]` with lists
`[type, number of objects, object, object, ...]`; it gives the list that goes into the sources and the objects found.
`buildInclude E product auto es inc'` is what a build writes when the nested objects delivered the entries `es`.
-/
namespace V8.Nested
open V8.Brace V8.Dec
open V8.Encode (lower)

/-- an example: a form file, a command kept inside, an attribute (a type without a class) -/
def exE : Env where
  nameOf := fun u => if u = ['f'] then some "Form".toList else if u = ['c'] then some "CatalogCommand".toList
    else if u = ['a'] then some "FormAttribute".toList else none
  uuidOf := fun n => if n = "Form".toList then some ['f'] else if n = "CatalogCommand".toList then some ['c']
    else if n = "FormAttribute".toList then some ['a'] else none
  handler := fun n => if n = "Form".toList then .outside else if n = "CatalogCommand".toList then .inside else .missing
  ident := fun _ v => match v with
    | .list (.str u :: _) => some u
    | _ => none

def exInc : List Val :=
  [.str ['7'], .none, .str ['4'],
   .list [.str ['f'], .str ['2'], .str ['u', '1'], .str ['u', '2']],
   .list [.str ['c'], .str ['1'], .list [.str ['k', '1'], .str ['d']]],
   .list [.str ['a'], .str ['1'], .list [.str ['z']]],
   .list [.str ['q'], .str ['1'], .str ['?']]]

/-- the sources of the example -/
def exOut : List Val :=
  [.str ['7'], .none, .str ['4'],
   .list [.str ['f'], .str ['2'], .str ['u', '1'], .str ['u', '2']],
   .list [.str ['c'], .str ['1'], .str ['k', '1']],
   .list [.str ['a'], .str ['1'], .list [.str ['z']]],
   .list [.str ['q'], .str ['1'], .str ['?']]]

def exObjs : List Obj :=
  [⟨"Form".toList, ['u', '1'], .str ['u', '1']⟩, ⟨"Form".toList, ['u', '2'], .str ['u', '2']⟩,
   ⟨"CatalogCommand".toList, ['k', '1'], .list [.str ['k', '1'], .str ['d']]⟩]

theorem ex_decode : decodeInclude exE false exInc = some (exOut, exObjs) := by decide +kernel

/-- what the nested objects of the example deliver, in another order -/
def exEntries : List Entry :=
  [⟨"Form".toList, ['U', '2'], ['B'], .str ['u', '2']⟩,
   ⟨"CatalogCommand".toList, ['k', '1'], ['C'], .list [.str ['k', '1'], .str ['d']]⟩,
   ⟨"Form".toList, ['u', '1'], ['A'], .str ['u', '1']⟩]

theorem ex_delivers : Delivers exE exEntries exObjs :=
  ⟨by decide +kernel, by decide +kernel, by decide +kernel⟩

/-- C57.  Whatever lists an object has (any number of types and objects, objects with files of their own and inner ones, unknown types),
and in whatever order the nested objects are delivered: if each of them delivers what stood in the list, the build writes the lists that
were extracted. -/
theorem C57_lists_round_trip (E : Env) (inc inc' : List Val) (os : List Obj) (es : List Entry)
    (h : decodeInclude E false inc = some (inc', os)) (hd : Delivers E es os) (hg : ∀ s ∈ inc.drop 3, NoGap s)
    (auto : Bool) : buildInclude E false auto es inc' = some inc := by
  obtain ⟨a, b, n, c, slots, slots', rfl, hn, hs, rfl⟩ := decodeInclude_some h
  unfold buildInclude
  by_cases he : es = []
  · rw [if_pos (.inl he)]
    have hos : os = [] := by
      rcases os with _ | ⟨o, r⟩
      · rfl
      · obtain ⟨e, hm, _⟩ := hd.found o List.mem_cons_self
        rw [he] at hm; cases hm
    subst hos
    rw [decodeSlots_none _ _ _ _ hs]
  · rw [if_neg (by simp [he])]
    have := fillSlots_decodeSlots _ _ _ _ _ hs hd hg
    simp only [fillInclude, hn, this, Option.map_some]

example : buildInclude exE false false exEntries exOut = some exInc :=
  C57_lists_round_trip exE exInc exOut exObjs exEntries ex_decode ex_delivers (by decide +kernel) false

/-- C57, with the option auto_include: the lists come back exactly when they were written in the order of the names (which is the order a
build chooses): any delivery order, any numbers. -/
theorem C57_automatic_lists_partial (E : Env) (inc inc' : List Val) (os : List Obj) (es : List Entry) (nm : Val → Text) (product : Bool)
    (h : decodeInclude E true inc = some (inc', os)) (ht : ∀ s ∈ inc.drop 3, Tidy E s) (ho : ∀ s ∈ inc.drop 3, NameOrder nm s)
    (hu : ∀ u ty, E.nameOf u = some ty → E.uuidOf ty = some u) (hr : ∀ e ∈ es, E.handler e.ty ≠ .missing)
    (hnm : ∀ e ∈ es, e.nm = nm e.data) (hne : es ≠ [])
    (hall : ∀ ty, ((ofType ty es).map Entry.data).Perm ((objsOf ty os).map Obj.orig)) :
    buildInclude E product true es inc' = some inc := by
  obtain ⟨a, b, n, c, slots, slots', rfl, hn, hs, rfl⟩ := decodeInclude_some h
  unfold buildInclude
  rw [if_neg (by simp [hne])]
  have := fillSlots_auto hr hu hnm _ _ _ _ _ hs ht ho (fun ty _ => hall ty)
  simp only [fillInclude, hn, this, Option.map_some]

/-- C57, the other half of the automatic order: each list that is rebuilt has the objects that were delivered for its type, each once, in the
order of their names, and their number. -/
theorem C57_automatic_order (E : Env) (es : List Entry) (ty u : Text) (hu : E.uuidOf ty = some u) :
    ∃ objs : List Entry, objs.Perm (ofType ty es) ∧ objs.Pairwise (fun x y => textLe x.nm y.nm = true) ∧
      fillSlot E es (.str ty) = some (.list (.str u :: .str (showNat (ofType ty es).length) :: objs.map Entry.data)) := by
  refine ⟨sortBy Entry.nm (ofType ty es), sortBy_perm _ _, sortBy_sorted _ _, ?_⟩
  simp only [fillSlot, hu, List.length_map, (sortBy_perm Entry.nm (ofType ty es)).length_eq]

def exNm : Val → Text := fun v => if v = .str ['u', '1'] then ['A'] else if v = .str ['u', '2'] then ['B'] else ['C']

def exAuto : List Val :=
  [.str ['7'], .none, .str ['4'], .str "Form".toList, .str "CatalogCommand".toList,
   .list [.str ['a'], .str ['1'], .list [.str ['z']]],
   .list [.str ['q'], .str ['1'], .str ['?']]]

theorem ex_auto : decodeInclude exE true exInc = some (exAuto, exObjs) := by decide +kernel

theorem ex_tidy : ∀ s ∈ exInc.drop 3, Tidy exE s := by
  intro s hs
  have hs' : s = .list [.str ['f'], .str ['2'], .str ['u', '1'], .str ['u', '2']] ∨
      s = .list [.str ['c'], .str ['1'], .list [.str ['k', '1'], .str ['d']]] ∨
      s = .list [.str ['a'], .str ['1'], .list [.str ['z']]] ∨
      s = .list [.str ['q'], .str ['1'], .str ['?']] := by
    simpa [exInc] using hs
  rcases hs' with rfl | rfl | rfl | rfl
  · refine ⟨by decide +kernel, ?_, ?_⟩
    · intro t n items ty he _
      cases he
      decide +kernel
    · intro t n items ty he hty hm
      cases he
      have : ty = "Form".toList := by
        have h2 : typeOf exE (.str ['f']) = some "Form".toList := by decide +kernel
        rw [h2] at hty; exact (Option.some.inj hty).symm
      subst this
      exact absurd hm (by decide +kernel)
  · refine ⟨by decide +kernel, ?_, ?_⟩
    · intro t n items ty he _
      cases he
      decide +kernel
    · intro t n items ty he hty hm
      cases he
      intro x hx
      exact ⟨_, List.mem_singleton.mp hx⟩
  · refine ⟨by decide +kernel, ?_, ?_⟩
    · intro t n items ty he _
      cases he
      decide +kernel
    · intro t n items ty he hty hm
      cases he
      intro x hx
      exact ⟨_, List.mem_singleton.mp hx⟩
  · refine ⟨by decide +kernel, ?_, ?_⟩
    · intro t n items ty he hty
      cases he
      have h2 : typeOf exE (.str ['q']) = none := by decide +kernel
      rw [h2] at hty; cases hty
    · intro t n items ty he hty hm
      cases he
      have h2 : typeOf exE (.str ['q']) = none := by decide +kernel
      rw [h2] at hty; cases hty

theorem ex_hall (ty : Text) : ((ofType ty exEntries).map Entry.data).Perm ((objsOf ty exObjs).map Obj.orig) := by
  by_cases h1 : ty = "Form".toList
  · subst h1; decide +kernel
  · by_cases h2 : ty = "CatalogCommand".toList
    · subst h2; decide +kernel
    · have ha : ofType ty exEntries = [] := by
        apply List.filter_eq_nil_iff.mpr
        intro e he
        have : e.ty = "Form".toList ∨ e.ty = "CatalogCommand".toList := by revert e; decide +kernel
        rw [decide_eq_true_eq]
        rcases this with h | h
        · rw [h]; exact fun hc => h1 hc.symm
        · rw [h]; exact fun hc => h2 hc.symm
      have hb : objsOf ty exObjs = [] := by
        apply objsOf_none
        intro o ho
        have : o.ty = "Form".toList ∨ o.ty = "CatalogCommand".toList := by revert o; decide +kernel
        rcases this with h | h
        · rw [h]; exact fun hc => h1 hc.symm
        · rw [h]; exact fun hc => h2 hc.symm
      rw [ha, hb]; exact .refl _

theorem ex_uuid (u ty : Text) (h : exE.nameOf u = some ty) : exE.uuidOf ty = some u := by
  simp only [exE] at h
  by_cases h1 : u = ['f']
  · subst h1; rw [if_pos rfl] at h; cases h; decide +kernel
  · rw [if_neg h1] at h
    by_cases h2 : u = ['c']
    · subst h2; rw [if_pos rfl] at h; cases h; decide +kernel
    · rw [if_neg h2] at h
      by_cases h3 : u = ['a']
      · subst h3; rw [if_pos rfl] at h; cases h; decide +kernel
      · rw [if_neg h3] at h; cases h

theorem ex_order : ∀ s ∈ exInc.drop 3, NameOrder exNm s := by
  intro s hs
  have hs' : s = .list [.str ['f'], .str ['2'], .str ['u', '1'], .str ['u', '2']] ∨
      s = .list [.str ['c'], .str ['1'], .list [.str ['k', '1'], .str ['d']]] ∨
      s = .list [.str ['a'], .str ['1'], .list [.str ['z']]] ∨
      s = .list [.str ['q'], .str ['1'], .str ['?']] := by
    simpa [exInc] using hs
  rcases hs' with rfl | rfl | rfl | rfl <;> exact ⟨by decide +kernel, by decide +kernel⟩

example : buildInclude exE true true exEntries exAuto = some exInc :=
  C57_automatic_lists_partial exE exInc exAuto exObjs exEntries exNm true ex_auto ex_tidy ex_order ex_uuid (by decide +kernel)
    (by decide +kernel) (by decide +kernel) ex_hall

/-- C57: extraction finds exactly the objects that stand in the lists of known types, in their order, each with its type: no object is
passed over and none is invented. -/
theorem C57_every_listed_object_found (E : Env) (auto : Bool) (inc inc' : List Val) (os : List Obj) (a b : Val) (n : Text) (slots : List Val)
    (hi : inc = a :: b :: .str n :: slots) (hn : n = showNat slots.length)
    (h : decodeInclude E auto inc = some (inc', os)) (ht : ∀ s ∈ slots, Tidy E s) :
    os.map (fun o => (o.ty, o.orig)) = slots.flatMap (listedSlot E) := by
  obtain ⟨a', b', n', c, sl, slots', he, hc, hs, rfl⟩ := decodeInclude_some h
  rw [hi] at he
  obtain ⟨rfl, rfl, hn', rfl⟩ : a = a' ∧ b = b' ∧ n = n' ∧ slots = sl := by simpa using he
  subst hn'
  have hlen := toNat_len (items := slots) hn hc
  have := slots_objs _ _ _ _ _ hs ht
  rw [this]
  congr 1
  rw [hlen]
  simp

example : exObjs.map (fun o => (o.ty, o.orig)) = (exInc.drop 3).flatMap (listedSlot exE) :=
  C57_every_listed_object_found exE false exInc exOut exObjs (.str ['7']) .none ['4'] (exInc.drop 3) rfl (by decide +kernel) ex_decode ex_tidy

/-- C57: two lists of the same type cannot both be taken apart: extraction fails (the folder of the type is there already) instead of
mixing the objects. -/
theorem C57_one_list_per_type (E : Env) (auto : Bool) (a b : Val) (n : Text) (c : Int) (slots : List Val) (r : List Val × List Obj)
    (hc : parseInt n = some c) (h : decodeInclude E auto (a :: b :: .str n :: slots) = some r) :
    ((slots.take c.toNat).filterMap (folderOf E)).Nodup := by
  obtain ⟨a', b', n', c', sl, slots', he, hc', hs, _⟩ := decodeInclude_some (inc' := r.1) (os := r.2) h
  obtain ⟨rfl, rfl, rfl, rfl⟩ : a = a' ∧ b = b' ∧ n = n' ∧ slots = sl := by simpa using he
  rw [hc] at hc'
  cases hc'
  exact (folders_nodup _ _ _ _ _ hs).1

example : decodeInclude exE false [.none, .none, .str ['2'], .list [.str ['f'], .str ['1'], .str ['u']],
    .list [.str ['f'], .str ['1'], .str ['v']]] = none := by decide +kernel

/-- C57 is false for the product itself without auto_include: the product does not fill its lists then, so inner objects of the product
are replaced by their identifiers for good, whatever the nested objects deliver. -/
theorem C57_inner_objects_of_product_lost_neg (E : Env) (inc inc' : List Val) (os : List Obj) (es : List Entry)
    (h : decodeInclude E false inc = some (inc', os)) (ho : ∃ o ∈ os, ∃ l, o.orig = .list l) :
    ∃ built, buildInclude E true false es inc' = some built ∧ built ≠ inc := by
  obtain ⟨a, b, n, c, slots, slots', rfl, hn, hs, rfl⟩ := decodeInclude_some h
  refine ⟨_, by unfold buildInclude; rw [if_pos (.inr ⟨rfl, rfl⟩)], ?_⟩
  have := slots_differ _ _ _ _ _ hs ho
  simpa using this

example : buildInclude exE true false exEntries exOut = some exOut ∧ exOut ≠ exInc := by
  constructor
  · decide +kernel
  · decide +kernel

/-- C57 is false when a product extracted with auto_include is built without the option, or an object extracted with it is built when none of its
nested objects delivers anything (all removed): the names of the types stay in the lists of the built file, where lists belong. -/
theorem C57_type_names_left_neg (E : Env) (inc inc' : List Val) (os : List Obj) (es : List Entry) (product auto : Bool)
    (h : decodeInclude E true inc = some (inc', os)) (ht : ∀ s ∈ inc.drop 3, Tidy E s) (o : Obj) (ho : o ∈ os)
    (hb : es = [] ∨ (product = true ∧ auto = false)) :
    ∃ built, buildInclude E product auto es inc' = some built ∧ Val.str o.ty ∈ built.drop 3 := by
  obtain ⟨a, b, n, c, slots, slots', rfl, hn, hs, rfl⟩ := decodeInclude_some h
  refine ⟨_, by unfold buildInclude; rw [if_pos hb], ?_⟩
  exact slots_auto_names _ _ _ _ _ hs ht o ho

example : ∃ built, buildInclude exE true false exEntries exAuto = some built ∧ Val.str "Form".toList ∈ built.drop 3 :=
  C57_type_names_left_neg exE exInc exAuto exObjs exEntries true false ex_auto ex_tidy ⟨"Form".toList, ['u', '1'], .str ['u', '1']⟩
    (by decide +kernel) (.inr ⟨rfl, rfl⟩)

end V8.Nested
