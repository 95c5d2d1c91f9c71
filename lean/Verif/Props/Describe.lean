import Verif.Props.FoldersRoot
/-
C83: the description of an object is edited in the sources: the new name and the new values of the header go into the file of this one object, everything else is as before.
-/
namespace V8.Describe
open V8.Brace V8.Enc V8.JsonText V8.Header V8.Object V8.Store V8.Tree V8.Module V8.Product
open V8.Nested hiding Handler Env
open V8.Root (Apart setAt_comm)
open V8.Folders (set_append apart_longer setAt_root)

/-! ### specification -/

/-- the description `j'` is the description `j` apart from the entries `ks` -/
def SameBut (ks : List Text) (j j' : JT) : Prop := ∀ k, k ∉ ks → entry j' k = entry j k

/-- The object whose header stands at `p` is one of the configuration itself, not borrowed from another one: at the sixth place of the header is 0 or nothing. -/
def Native (p : List Nat) (v : Val) : Prop := getAt v (p ++ [5]) = none ∨ getAt v (p ++ [5]) = some (.str ['0'])

/-- the files `fs'` are the files `fs`, but the brace file `x` has the data `d'` instead of `d` -/
def OnlyData (win : Bool) (x : Text) (d d' : List (List Val)) (fs fs' : List (Text × Node)) : Prop :=
  ∃ a r, fs = a ++ (x, .file (braceFile win d)) :: r ∧ fs' = a ++ (x, .file (braceFile win d')) :: r

/-- the raw data `v` with the value `w` at the place `q` are `v'` -/
def PutAt (q : List Nat) (w : Val) (d d' : List (List Val)) : Prop := setAt (rootVal d) q w = some (rootVal d')

/-- In the description of an object of the class `k` - `S` are its files before, `S'` after - the entries `ks` are edited: `j` is the description before and `j'` after. -/
structure DescriptionEdit (k : Kind) (ks : List Text) (S S' : Text → Option Bytes) (j j' : JT) : Prop where
  rest : ∀ m, m ≠ objName k.name → S' m = S m
  before : ∃ b, S (objName k.name) = some b ∧ readFile b = some j
  after : ∃ b, S' (objName k.name) = some b ∧ readFile b = some j'
  same : SameBut ks j j'

/-! ### the header in places -/

theorem textAt_entry {j : JT} {k : Text} {t : Text} : textAt j k = some t ↔ entry j k = some (.str t) := by
  cases j with
  | obj d =>
    unfold textAt entry
    simp only
    cases h : dget d k with
    | none => simp
    | some v => cases v <;> simp
  | _ => simp [textAt, entry]

theorem treeAt_entry {j : JT} {k : Text} : treeAt j k = (entry j k).bind valOf := by
  cases j <;> rfl

/-- what the build does to the raw data `v`: the identifier, and the name of an object at the top level that is no borrowed one -/
def Filled (p : List Nat) (top : Prop) (pfx u n : Text) (v v' : Val) : Prop :=
  ∃ a, setAt v (p ++ [1, 2]) (.str u) = some a ∧ ((top ∧ Native p a ∧ setAt a (p ++ [2]) (.str (strEncode (pfx ++ n))) = some v') ∨ (¬ (top ∧ Native p a) ∧ v' = a))

theorem setUuid_places {h h1 : List Val} {u : Text} : setUuid h u = some h1 ↔ setAt (.list h) [1, 2] (.str u) = some (.list h1) := by
  unfold setUuid listAt
  rw [setAt]
  cases h1 : h[1]? with
  | none => simp
  | some x =>
    cases x with
    | none => simp [setAt]
    | str _ => simp [setAt]
    | list l =>
      simp only [setAt]
      cases h2 : l[2]? with
      | none => 
        have : ¬ 2 < l.length := by
          intro hl
          rw [List.getElem?_eq_none_iff] at h2
          omega
        rw [if_neg this]
        simp
      | some y =>
        have : 2 < l.length := (List.getElem?_eq_some_iff.mp h2).1
        rw [if_pos this]
        simp

theorem native_places {h : List Val} : native h = true ↔ Native [] (.list h) := by
  unfold native Native
  rw [List.nil_append, getAt]
  cases h5 : h[5]? with
  | none =>
    have : h.length < 6 := by rw [List.getElem?_eq_none_iff] at h5; omega
    simp [this]
  | some x =>
    have : ¬ h.length < 6 := by have := (List.getElem?_eq_some_iff.mp h5).1; omega
    simp [this, getAt]

theorem native_at {p : List Nat} {v : Val} {h : List Val} (hv : getAt v p = some (.list h)) : native h = true ↔ Native p v := by
  rw [native_places]
  unfold Native
  rw [V8.Product.getAt_append p [5] v, hv, List.nil_append]
  rfl

theorem set_one {l : List Val} {i : Nat} {w : Val} : (setAt (.list l) [i] w = some (.list (l.set i w)) ∧ i < l.length) ∨ (setAt (.list l) [i] w = none ∧ ¬ i < l.length) := by
  rw [setAt]
  cases hi : l[i]? with
  | none => exact .inr ⟨rfl, by rw [List.getElem?_eq_none_iff] at hi; omega⟩
  | some x => exact .inl ⟨rfl, (List.getElem?_eq_some_iff.mp hi).1⟩

theorem set_at : ∀ (p q : List Nat) (v a w : Val), getAt v p = some a → setAt v (p ++ q) w = (setAt a q w).bind (setAt v p)
  | [], q, v, a, w, h => by
    have : v = a := by cases v <;> simpa [getAt] using h
    subst this
    rw [List.nil_append]
    cases hs : setAt v q w with
    | none => rfl
    | some b => cases v <;> rfl
  | i :: p, q, .none, a, w, h => by simp [getAt] at h
  | i :: p, q, .str _, a, w, h => by simp [getAt] at h
  | i :: p, q, .list l, a, w, h => by
    rw [getAt] at h
    rw [List.cons_append, setAt]
    cases hi : l[i]? with
    | none => simp [hi] at h
    | some x =>
      rw [hi] at h
      simp only at h ⊢
      rw [set_at p q x a w h]
      cases hs : setAt a q w with
      | none => rfl
      | some b =>
        simp only [Option.bind_some]
        rw [setAt, hi]

theorem list_set {l : List Val} {i : Nat} {q : List Nat} {w v : Val} (h : setAt (.list l) (i :: q) w = some v) : ∃ l', v = .list l' := by
  rw [setAt] at h
  cases h1 : l[i]? with
  | none => simp [h1] at h
  | some x => simp only [h1, Option.map_eq_some_iff] at h; obtain ⟨y, _, rfl⟩ := h; exact ⟨_, rfl⟩

/-- the header as it is built, place by place -/
theorem filled_iff {p : List Nat} {pfx parent u n : Text} {v v' : Val} {h : List Val} {nn : List (Text × Text)} {cc : Text} (hv : getAt v p = some (.list h)) :
    (encodeHeader pfx parent ⟨u, n, nn, cc⟩ h).bind (fun h2 => setAt v p (.list h2)) = some v' ↔ Filled p ('/' ∉ parent) pfx u n v v' := by
  unfold encodeHeader Filled
  simp only
  rw [set_at p [1, 2] v _ _ hv]
  cases hu : setUuid h u with
  | none =>
    have hno : setAt (.list h) [1, 2] (.str u) = none := by
      cases hs : setAt (.list h) [1, 2] (.str u) with
      | none => rfl
      | some w =>
        obtain ⟨h1, rfl⟩ := list_set hs
        rw [setUuid_places.mpr hs] at hu
        cases hu
    rw [hno]
    simp
  | some h1 =>
    rw [setUuid_places.mp hu]
    simp only [Option.bind_some]
    obtain ⟨a, ha⟩ := setAt_some p v _ (.list h1) hv
    have hga : getAt a p = some (.list h1) := getAt_setAt _ _ _ _ ha
    have hnat := native_at hga
    simp only [ha, Option.some.injEq, exists_eq_left']
    rw [set_at p [2] a _ _ hga]
    by_cases ht : '/' ∉ parent ∧ native h1 = true
    · rw [if_pos ht]
      have ht' : '/' ∉ parent ∧ Native p a := ⟨ht.1, hnat.mp ht.2⟩
      rcases set_one (l := h1) (i := 2) (w := .str (strEncode (pfx ++ n))) with ⟨e1, e2⟩ | ⟨e1, e2⟩
      · rw [if_pos e2, e1]
        simp only [Option.bind_some]
        rw [setAt_setAt _ _ _ _ _ ha]
        simp [ht'.1, ht'.2]
      · rw [if_neg e2, e1]
        simp [ht'.1, ht'.2]
    · rw [if_neg ht]
      have ht' : ¬ ('/' ∉ parent ∧ Native p a) := fun hh => ht ⟨hh.1, hnat.mpr hh.2⟩
      simp only [Option.bind_some, ha]
      constructor
      · intro hh; exact .inr ⟨ht', (Option.some.inj hh).symm⟩
      · rintro (⟨h1, h2, _⟩ | ⟨_, rfl⟩)
        · exact absurd ⟨h1, h2⟩ ht'
        · rfl

/-- the build of an object, step by step -/
theorem build_steps {y : Bld} {c : Cls} {es : List Entry} {s : Object.Src} {u n : Text} {v : Val} : buildVal y c es s = some (u, n, v) ↔
    ∃ jid j root r0 r1 r2, readFile s.id = some jid ∧ readFile s.obj = some j ∧ textAt jid "uuid".toList = some u ∧ textAt j "name".toList = some n ∧
      treeAt j "header".toList = some root ∧ showIds c y.ver jid root = some r0 ∧ putIncludes y c es r0 = some r1 ∧ Filled c.path ('/' ∉ y.parent) y.p u n r1 r2 ∧
      stampIn y c r2 = some v := by
  unfold buildVal
  constructor
  · intro h
    simp only [Option.bind_eq_some_iff] at h
    obtain ⟨jid, h1, j, h2, h⟩ := h
    cases hu : textAt jid "uuid".toList with
    | none => rw [hu] at h; cases h
    | some u' =>
      rw [hu] at h
      cases hn : textAt j "name".toList with
      | none => rw [hn] at h; cases h
      | some nm =>
        rw [hn] at h
        cases hr : treeAt j "header".toList with
        | none => rw [hr] at h; cases h
        | some root =>
          rw [hr] at h
          simp only [Option.bind_eq_some_iff] at h
          obtain ⟨r0, g0, r1, g1, h⟩ := h
          cases hg : getAt r1 c.path with
          | none => rw [hg] at h; cases h
          | some x =>
            rw [hg] at h
            cases x with
            | none => cases h
            | str _ => cases h
            | list l =>
              simp only [Option.bind_eq_some_iff, Option.map_eq_some_iff] at h
              obtain ⟨h2', e1, r2, e2, v', e3, e4⟩ := h
              rw [Prod.mk.injEq, Prod.mk.injEq] at e4
              obtain ⟨rfl, rfl, rfl⟩ := e4
              refine ⟨jid, j, root, r0, r1, r2, h1, h2, hu, hn, hr, g0, g1, ?_, e3⟩
              rw [← filled_iff hg (nn := []) (cc := []), e1, Option.bind_some, e2]
  · rintro ⟨jid, j, root, r0, r1, r2, h1, h2, hu, hn, hr, g0, g1, hf, hs⟩
    simp only [h1, h2, Option.bind_some, hu, hn, hr, g0, g1]
    obtain ⟨l, hg⟩ : ∃ l, getAt r1 c.path = some (.list l) := by
      obtain ⟨a, ha, _⟩ := hf
      have hsome : ∀ (p : List Nat) (v w a : Val), setAt v (p ++ [1, 2]) w = some a → ∃ l, getAt v p = some (.list l) := by
        intro p
        induction p with
        | nil =>
          intro v w a h
          cases v with
          | none => simp [setAt] at h
          | str _ => simp [setAt] at h
          | list l => exact ⟨l, rfl⟩
        | cons i p ih =>
          intro v w a h
          cases v with
          | none => simp [setAt] at h
          | str _ => simp [setAt] at h
          | list l =>
            rw [List.cons_append, setAt] at h
            rw [getAt]
            cases hi : l[i]? with
            | none => simp [hi] at h
            | some x =>
              simp only [hi, Option.map_eq_some_iff] at h ⊢
              obtain ⟨b, hb, _⟩ := h
              exact ih x w b hb
      exact hsome _ _ _ _ ha
    rw [hg]
    have := (filled_iff hg (nn := []) (cc := []) (parent := y.parent) (pfx := y.p) (u := u) (n := n) (v' := r2)).mpr hf
    rw [Option.bind_eq_some_iff] at this
    obtain ⟨h2', e1, e2⟩ := this
    simp only [e1, Option.bind_some, e2, hs, Option.map_some]

/-! ### the name -/

theorem apart_last {p : List Nat} {i j : Nat} (h : i ≠ j) : Apart (p ++ [i]) (p ++ [j]) := by
  constructor <;> intro hh <;> rw [List.prefix_append_right_inj] at hh <;> rw [List.cons_prefix_cons] at hh
  · exact h hh.1
  · exact h hh.1.symm

/-- the version in the comment does not interfere -/
theorem stamp_comm {y : Bld} {c : Cls} {r v : Val} {q : List Nat} {w : Val} {r' : Val} (h : stampIn y c r = some v) (hq : c.stamp = true → Apart (c.path ++ [4]) q)
    (hr : setAt r q w = some r') (hv : ∃ x, getAt v q = some x) : ∃ v', stampIn y c r' = some v' ∧ setAt v q w = some v' := by
  unfold stampIn at h ⊢
  by_cases hs : c.stamp = true
  · rw [if_pos hs] at h ⊢
    have hq := hq hs
    unfold setComment at h ⊢
    by_cases hp : y.prod = []
    · rw [if_pos hp] at h ⊢
      cases h
      exact ⟨r', rfl, hr⟩
    · rw [if_neg hp] at h ⊢
      rw [getAt_frame _ _ _ _ _ hr hq.2 hq.1]
      cases hg : getAt r (c.path ++ [4]) with
      | none => rw [hg] at h; cases h
      | some x =>
        rw [hg] at h
        cases x with
        | none => cases h
        | list _ => cases h
        | str tok =>
          simp only at h ⊢
          rcases hb : Str.breakOn mark (strDecode tok) with ⟨a, _ | b⟩
          · rw [hb] at h
            simp only at h ⊢
            cases h
            exact ⟨r', rfl, hr⟩
          · rw [hb] at h
            simp only [if_neg hp] at h ⊢
            obtain ⟨x, hv⟩ := hv
            obtain ⟨v', hv'⟩ := setAt_some q v x w hv
            obtain ⟨r3, e1, e2⟩ := setAt_comm _ _ _ _ _ _ _ hq h hv'
            rw [hr] at e1
            cases e1
            exact ⟨v', e2, hv'⟩
  · rw [if_neg hs] at h ⊢
    cases h
    exact ⟨r', rfl, hr⟩

theorem native_frame {p q : List Nat} {v v' w : Val} (h : setAt v q w = some v') (hq : Apart q (p ++ [5])) : Native p v' ↔ Native p v := by
  unfold Native
  rw [getAt_frame _ _ _ _ _ h hq.1 hq.2]

theorem apart_uuid {p : List Nat} {i j : Nat} (h : i ≠ 1) : Apart (p ++ [i]) (p ++ [1, j]) := by
  constructor <;> intro hh <;> rw [List.prefix_append_right_inj] at hh <;> rw [List.cons_prefix_cons] at hh
  · exact h hh.1
  · exact h hh.1.symm

/-- the object with another name: `s'` is the sources with the name changed -/
theorem val_name {y : Bld} {c : Cls} {es : List Entry} {s s' : Object.Src} {j j' : JT} {u n n' : Text} {v : Val} (hid : s'.id = s.id) (hj : readFile s.obj = some j) (hj' : readFile s'.obj = some j')
    (hs : entry j' "header".toList = entry j "header".toList) (hn : entry j' "name".toList = some (.str n')) (h : buildVal y c es s = some (u, n, v)) :
    ∃ v', buildVal y c es s' = some (u, n', v') ∧ ((('/' ∉ y.parent ∧ Native c.path v) ∧ setAt v (c.path ++ [2]) (.str (strEncode (y.p ++ n'))) = some v') ∨
      (¬ ('/' ∉ y.parent ∧ Native c.path v) ∧ v' = v)) := by
  rw [build_steps] at h
  obtain ⟨jid, j0, root, r0, r1, r2, h1, h2, hu, hn0, hr, g0, g1, ⟨a, ha, hf⟩, hst⟩ := h
  cases hj.symm.trans h2
  have hnat : ∀ {z z' : Val} , stampIn y c z = some z' → (Native c.path z' ↔ Native c.path z) := by
    intro z z' hz
    unfold stampIn at hz
    by_cases hs : c.stamp = true
    · rw [if_pos hs] at hz
      unfold setComment at hz
      by_cases hp : y.prod = []
      · rw [if_pos hp] at hz; cases hz; rfl
      · rw [if_neg hp] at hz
        cases hg : getAt z (c.path ++ [4]) with
        | none => rw [hg] at hz; cases hz
        | some x =>
          rw [hg] at hz
          cases x with
          | none => cases hz
          | list _ => cases hz
          | str tok =>
            simp only at hz
            rcases hb : Str.breakOn mark (strDecode tok) with ⟨b, _ | b'⟩
            · rw [hb] at hz; simp only at hz; cases hz; rfl
            · rw [hb] at hz
              simp only [if_neg hp] at hz
              exact native_frame hz (apart_last (by decide))
    · rw [if_neg hs] at hz; cases hz; rfl
  rcases hf with ⟨ht, hna, hset⟩ | ⟨hno, rfl⟩
  · -- the name is written
    have hg2 := getAt_setAt _ _ _ _ hset
    have hna2 : Native c.path r2 := (native_frame hset (apart_last (by decide))).mpr hna
    have hnv : Native c.path v := (hnat hst).mpr hna2
    obtain ⟨r2', hr2'⟩ := setAt_some (c.path ++ [2]) r2 _ (.str (strEncode (y.p ++ n'))) hg2
    have hv : ∃ x, getAt v (c.path ++ [2]) = some x := by
      have hst2 := hst
      unfold stampIn at hst2
      by_cases hs : c.stamp = true
      · rw [if_pos hs] at hst2
        unfold setComment at hst2
        by_cases hp : y.prod = []
        · rw [if_pos hp] at hst2; cases hst2; exact ⟨_, hg2⟩
        · rw [if_neg hp] at hst2
          cases hg : getAt r2 (c.path ++ [4]) with
          | none => rw [hg] at hst2; cases hst2
          | some x =>
            rw [hg] at hst2
            cases x with
            | none => cases hst2
            | list _ => cases hst2
            | str tok =>
              simp only at hst2
              rcases hb : Str.breakOn mark (strDecode tok) with ⟨b, _ | b'⟩
              · rw [hb] at hst2; simp only at hst2; cases hst2; exact ⟨_, hg2⟩
              · rw [hb] at hst2
                simp only [if_neg hp] at hst2
                have hap : Apart (c.path ++ [4]) (c.path ++ [2]) := apart_last (by decide)
                exact ⟨_, (getAt_frame _ _ _ _ _ hst2 hap.1 hap.2).trans hg2⟩
      · rw [if_neg hs] at hst2; cases hst2; exact ⟨_, hg2⟩
    obtain ⟨v', hv1, hv2⟩ := stamp_comm hst (fun _ => apart_last (by decide)) hr2' hv
    refine ⟨v', ?_, .inl ⟨⟨ht, hnv⟩, hv2⟩⟩
    rw [build_steps]
    refine ⟨jid, j', root, r0, r1, r2', by rw [hid]; exact h1, hj', hu, textAt_entry.mpr hn, by rw [treeAt_entry, hs, ← treeAt_entry]; exact hr, g0, g1, ⟨a, ha, .inl ⟨ht, hna, ?_⟩⟩, hv1⟩
    rw [← setAt_setAt _ _ _ _ _ hset]
    exact hr2'
  · refine ⟨v, ?_, .inr ⟨fun hh => hno ⟨hh.1, (hnat hst).mp hh.2⟩, rfl⟩⟩
    rw [build_steps]
    exact ⟨jid, j', root, r0, r1, r2, by rw [hid]; exact h1, hj', hu, textAt_entry.mpr hn, by rw [treeAt_entry, hs, ← treeAt_entry]; exact hr, g0, g1, ⟨r2, ha, .inr ⟨hno, rfl⟩⟩, hst⟩

/-! ### a value of the header -/

/-- The place `q` of the raw data of an object of the class `c` is neither the identifier nor the name nor the mark of a borrowed object, and not in the lists of nested objects. -/
structure Free (c : Cls) (q : List Nat) : Prop where
  uuid : Apart q (c.path ++ [1, 2])
  name : Apart q (c.path ++ [2])
  mark : Apart q (c.path ++ [5])
  long : ∃ i k q', q = i :: k :: q'
  lists : c.includes = true → ∃ q', q = 0 :: 1 :: q'

theorem includes_comm {y : Bld} {c : Cls} {es : List Entry} {r r1 r' : Val} {q : List Nat} {w : Val} (h : putIncludes y c es r = some r1) (hf : Free c q) (hr : setAt r q w = some r') :
    ∃ r1', putIncludes y c es r' = some r1' ∧ setAt r1 q w = some r1' := by
  unfold putIncludes at h ⊢
  by_cases hi : c.includes = true
  · rw [if_pos hi] at h ⊢
    obtain ⟨q', rfl⟩ := hf.lists hi
    cases r with
    | none => simp [setAt] at hr
    | str _ => simp [setAt] at hr
    | list l =>
      rw [setAt] at hr
      simp only [getAt] at h
      cases h0 : l[0]? with
      | none => simp [h0] at h
      | some z =>
        rw [h0] at h hr
        simp only [Option.map_eq_some_iff] at hr
        obtain ⟨z', hz', rfl⟩ := hr
        have hl : 0 < l.length := (List.getElem?_eq_some_iff.mp h0).1
        cases z with
        | none => cases h
        | str _ => cases h
        | list inc =>
          simp only [Option.bind_eq_some_iff] at h
          obtain ⟨inc1, hb, h⟩ := h
          rw [setAt, h0] at h
          simp only [setAt, Option.map_some, Option.some.injEq] at h
          subst h
          rw [setAt] at hz'
          cases h1 : inc[1]? with
          | none => simp [h1] at hz'
          | some b =>
            rw [h1] at hz'
            simp only [Option.map_eq_some_iff] at hz'
            obtain ⟨b', hb', rfl⟩ := hz'
            suffices hx : buildInclude y.E false y.auto es (inc.set 1 b') = some (inc1.set 1 b') ∧ inc1[1]? = some b by
              refine ⟨.list (l.set 0 (.list (inc1.set 1 b'))), ?_, ?_⟩
              · simp only [getAt, List.getElem?_set_self hl, hx.1, Option.bind_some]
                rw [setAt, List.getElem?_set_self hl]
                simp only [setAt, Option.map_some, List.set_set]
              · rw [setAt, List.getElem?_set_self hl]
                simp only [setAt, hx.2, hb', Option.map_some, List.set_set]
            unfold buildInclude at hb ⊢
            by_cases he : es = [] ∨ (false = true ∧ y.auto = false)
            · rw [if_pos he] at hb ⊢
              cases hb
              exact ⟨rfl, h1⟩
            · rw [if_neg he] at hb ⊢
              unfold fillInclude at hb
              split at hb
              · rename_i a b0 n slots
                simp only [List.getElem?_cons_succ, List.getElem?_cons_zero, Option.some.injEq] at h1
                subst h1
                simp only [List.set_cons_succ, List.set_cons_zero]
                unfold fillInclude
                cases hp : V8.Dec.parseInt n with
                | none => rw [hp] at hb; cases hb
                | some cnt =>
                  rw [hp] at hb
                  simp only [Option.map_eq_some_iff] at hb
                  obtain ⟨sl, hsl, rfl⟩ := hb
                  simp only [hp, hsl]
                  exact ⟨rfl, rfl⟩
              · cases hb
  · rw [if_neg hi] at h ⊢
    cases h
    exact ⟨r', rfl, hr⟩

theorem get_of_frame {v v' w : Val} {p q : List Nat} (h : setAt v p w = some v') (ha : Apart p q) (hg : ∃ x, getAt v q = some x) : ∃ x, getAt v' q = some x := by
  obtain ⟨x, hx⟩ := hg
  exact ⟨x, (getAt_frame _ _ _ _ _ h ha.1 ha.2).trans hx⟩

/-- assignments at two places apart, the second one known to exist -/
theorem set_both {v a v' x y : Val} {p q : List Nat} (ha : Apart p q) (h1 : setAt v p x = some a) (h2 : setAt v q y = some v') :
    ∃ b, setAt a q y = some b ∧ setAt v' p x = some b := by
  have hg : ∃ z, getAt v q = some z := by
    obtain ⟨v3, _⟩ : ∃ z, z = v := ⟨v, rfl⟩
    have hgen : ∀ (q : List Nat) (v y v' : Val), setAt v q y = some v' → ∃ z, getAt v q = some z := by
      intro q
      induction q with
      | nil => intro v y v' _; exact ⟨v, by cases v <;> rfl⟩
      | cons i q ih =>
        intro v y v' h
        cases v with
        | none => simp [setAt] at h
        | str _ => simp [setAt] at h
        | list l =>
          rw [setAt] at h
          rw [getAt]
          cases hi : l[i]? with
          | none => simp [hi] at h
          | some z =>
            simp only [hi, Option.map_eq_some_iff] at h ⊢
            obtain ⟨b, hb, _⟩ := h
            exact ih z y b hb
    exact hgen _ _ _ _ h2
  obtain ⟨z, hz⟩ := get_of_frame h1 ha hg
  obtain ⟨b, hb⟩ := setAt_some q a z y hz
  obtain ⟨v3, e1, e2⟩ := setAt_comm _ _ _ _ _ _ _ ha h1 hb
  rw [h2] at e1
  cases e1
  exact ⟨b, hb, e2⟩

/-- the object with another value in the header -/
theorem val_header {y : Bld} {c : Cls} {es : List Entry} {s s' : Object.Src} {j j' : JT} {u n : Text} {v root root' : Val} {q : List Nat} {w : Val} (hids : c.ids = []) (hst : c.stamp = false)
    (hid : s'.id = s.id) (hj : readFile s.obj = some j) (hj' : readFile s'.obj = some j') (hn : entry j' "name".toList = entry j "name".toList) (hr : treeAt j "header".toList = some root)
    (hr' : treeAt j' "header".toList = some root') (hq : Free c q) (hset : setAt root q w = some root') (h : buildVal y c es s = some (u, n, v)) :
    ∃ v', buildVal y c es s' = some (u, n, v') ∧ setAt v q w = some v' := by
  rw [build_steps] at h
  obtain ⟨jid, j0, root0, r0, r1, r2, h1, h2, hu, hn0, hr0, g0, g1, ⟨a, ha, hf⟩, hs⟩ := h
  cases hj.symm.trans h2
  cases hr.symm.trans hr0
  have hshow : ∀ jid z, showIds c y.ver jid z = some z := by
    intro jid z
    unfold showIds
    rw [if_pos (.inl hids)]
  rw [hshow] at g0
  cases g0
  have hstamp : ∀ z, stampIn y c z = some z := by
    intro z
    unfold stampIn
    rw [hst]
    rfl
  rw [hstamp] at hs
  cases hs
  obtain ⟨r1', e1, e2⟩ := includes_comm g1 hq hset
  obtain ⟨a', e3, e4⟩ := set_both hq.uuid.symm ha e2
  have hnat : Native c.path a' ↔ Native c.path a := native_frame e3 hq.mark
  have hdone : ∃ v', setAt v q w = some v' ∧ (('/' ∉ y.parent ∧ Native c.path a' ∧ setAt a' (c.path ++ [2]) (.str (strEncode (y.p ++ n))) = some v') ∨ (¬ ('/' ∉ y.parent ∧ Native c.path a') ∧ v' = a')) := by
    rcases hf with ⟨t1, t2, t3⟩ | ⟨t1, rfl⟩
    · obtain ⟨v', e5, e6⟩ := set_both hq.name.symm t3 e3
      exact ⟨v', e5, .inl ⟨t1, hnat.mpr t2, e6⟩⟩
    · exact ⟨a', e3, .inr ⟨fun hh => t1 ⟨hh.1, hnat.mp hh.2⟩, rfl⟩⟩
  obtain ⟨v', e5, e6⟩ := hdone
  refine ⟨v', ?_, e5⟩
  rw [build_steps]
  exact ⟨jid, j', root', root', r1', v', by rw [hid]; exact h1, hj', hu, by rw [textAt_entry, hn, ← textAt_entry]; exact hn0, hr', hshow _ _, e1, ⟨a', e4, e6⟩, hstamp _⟩

/-! ### one object with its files -/

/-- the description is none of the other files of an object -/
theorem objName_other {k : Kind} (hk : (sources k).Nodup) : idName k.name ≠ objName k.name ∧
    (∀ sfx, k.help = some sfx → dot k.name "html".toList ≠ objName k.name ∧ dot k.name "bin".toList ≠ objName k.name) ∧ (∀ b ∈ k.blobs, b.2 ≠ objName k.name) ∧
    ∀ c ∈ k.codes, bslName k.name c.1 ≠ objName k.name ∧ binName k.name c.1 ≠ objName k.name := by
  unfold sources at hk
  rw [List.nodup_append] at hk
  obtain ⟨h1, h2, h3⟩ := hk
  have ho : objName k.name ∈ [idName k.name, objName k.name] := List.mem_cons_of_mem _ List.mem_cons_self
  refine ⟨?_, fun sfx hs => ⟨fun h => ?_, fun h => ?_⟩, fun b hb h => ?_, fun c hc => ⟨fun h => ?_, fun h => ?_⟩⟩
  · rw [List.nodup_cons] at h2
    intro h
    exact h2.1 (by rw [h]; exact List.mem_cons_self)
  · refine h3 _ (List.mem_append_left _ (List.mem_append_left _ ?_)) _ ho h
    rw [hs]
    exact List.mem_flatMap.mpr ⟨sfx, List.mem_cons_self, List.mem_cons_self⟩
  · refine h3 _ (List.mem_append_left _ (List.mem_append_left _ ?_)) _ ho h
    rw [hs]
    exact List.mem_flatMap.mpr ⟨sfx, List.mem_cons_self, List.mem_cons_of_mem _ List.mem_cons_self⟩
  · exact h3 _ (List.mem_append_left _ (List.mem_append_right _ (List.mem_map.mpr ⟨b, hb, rfl⟩))) _ ho h
  · exact h3 _ (List.mem_append_right _ (List.mem_flatMap.mpr ⟨c, hc, List.mem_cons_self⟩)) _ ho h
  · exact h3 _ (List.mem_append_right _ (List.mem_flatMap.mpr ⟨c, hc, List.mem_cons_of_mem _ List.mem_cons_self⟩)) _ ho h

/-- the entries that are about the object itself and no other file -/
def own : List Text := ["name".toList, "name2".toList, "comment".toList, "header".toList]

theorem key_other (n : Text) : infoKey n ∉ own ∧ encKey n ∉ own := by
  have h : ∀ (a n : Text) (l : List Text), (∀ x ∈ l, ¬ a <+: x) → a ++ n ∉ l := fun a n l hl hm => hl _ hm (List.prefix_append a n)
  exact ⟨h _ n _ (by decide), h _ n _ (by decide)⟩

theorem help_other : "help".toList ∉ own ∧ "info".toList ∉ own := by decide

theorem codesIn_desc {win cd : Bool} {k : Text} {S : Text → Option Bytes} {j j' : JT} {u : Text} (h : SameBut own j j') : ∀ l : List (Text × Text),
    codesIn win cd k S j' u l = codesIn win cd k S j u l
  | [] => rfl
  | c :: l => by
    rw [codesIn, codesIn, codesIn_desc h l]
    unfold codeIn codeInfo encOf
    rw [h _ (key_other c.1).1, h _ (key_other c.1).2]

theorem helpIn_desc {win : Bool} {k : Text} {S : Text → Option Bytes} {j j' : JT} {u : Text} {o : Option Text} (h : SameBut own j j') : helpIn win k S j' u o = helpIn win k S j u o := by
  cases o with
  | none => rfl
  | some sfx =>
    unfold helpIn helpField
    rw [h _ help_other.1]

theorem infoIn_desc {win : Bool} {j j' : JT} {u : Text} {o : Option Text} (h : SameBut own j j') : infoIn win j' u o = infoIn win j u o := by
  cases o with
  | none => rfl
  | some sfx =>
    unfold infoIn
    rw [h _ help_other.2]

theorem SameBut.more {ks ks' : List Text} {j j' : JT} (h : SameBut ks j j') (hk : ∀ k ∈ ks, k ∈ ks') : SameBut ks' j j' := fun k hn => h k (fun hm => hn (hk k hm))

/-- the files of an object whose description is edited -/
theorem full_desc {y : Bld} {k : Kind} {es : List Entry} {ks : List Text} {S S' : Text → Option Bytes} {j j' : JT} (hk : (sources k).Nodup) (he : DescriptionEdit k ks S S' j j')
    (hks : ∀ x ∈ ks, x ∈ own) {g : Option Given} {fs : List (Text × Node)} (h : buildFull y k es S = some (g, fs)) : (g = none ∧ buildFull y k es S' = some (none, []) ∧ fs = []) ∨
      ∃ bi bo bo' u n v d, S (idName k.name) = some bi ∧ readFile bo = some j ∧ readFile bo' = some j' ∧ buildVal y k.cls es ⟨bi, bo⟩ = some (u, n, v) ∧ rootOf v = some d ∧
        g = some ⟨u, n, .str u⟩ ∧ ∃ a r, fs = a ++ (u, .file (braceFile y.win d)) :: r ∧ ∀ n' v' d', buildVal y k.cls es ⟨bi, bo'⟩ = some (u, n', v') → rootOf v' = some d' →
          buildFull y k es S' = some (some ⟨u, n', .str u⟩, a ++ (u, .file (braceFile y.win d')) :: r) := by
  obtain ⟨o1, o2, o3, o4⟩ := objName_other hk
  obtain ⟨hrest, ⟨bo, hbo, hj⟩, ⟨bo', hbo', hj'⟩, hsame⟩ := he
  have hsame := hsame.more hks
  unfold buildFull at h
  cases hid : S (idName k.name) with
  | none =>
    rw [hid] at h
    simp only [Option.some.injEq, Prod.mk.injEq] at h
    obtain ⟨rfl, rfl⟩ := h
    refine .inl ⟨rfl, ?_, rfl⟩
    unfold buildFull
    rw [hrest _ o1, hid]
  | some bi =>
    rw [hid, hbo] at h
    simp only [hj, Option.bind_some, Option.bind_eq_some_iff, Option.map_eq_some_iff] at h
    obtain ⟨⟨u, n, v⟩, hr, d, hd, hp, hhp, cs, hcs, inf, hinf, he2⟩ := h
    rw [Prod.mk.injEq] at he2
    obtain ⟨rfl, rfl⟩ := he2
    refine .inr ⟨bi, bo, bo', u, n, v, d, rfl, hj, hj', hr, hd, rfl, written (hp ++ blobsIn S u k.blobs), written (cs ++ inf), ?_, fun n' v' d' hv' hd' => ?_⟩
    · simp only [written, List.filterMap_append, List.filterMap_cons, Option.map_some, List.append_assoc, List.cons_append]
    · unfold buildFull
      rw [hrest _ o1, hid, hbo']
      simp only [hj', Option.bind_some, hv', hd']
      rw [helpIn_desc hsame, codesIn_desc hsame, infoIn_desc hsame, V8.Edit.helpIn_rest (S := S) (S' := S') (fun sfx hs => ⟨hrest _ (o2 sfx hs).1, hrest _ (o2 sfx hs).2⟩),
        V8.Edit.codesIn_rest (S := S) (S' := S') (fun c hc => ⟨hrest _ (o4 c hc).1, hrest _ (o4 c hc).2⟩), V8.Edit.blobsIn_rest (S := S) (S' := S') (fun b hb => hrest _ (o3 b hb)), hhp, hcs, hinf]
      simp only [Option.bind_some, Option.map_some, written, List.filterMap_append, List.filterMap_cons, List.append_assoc, List.cons_append]

theorem root_some {v : Val} {d : List (List Val)} : rootOf v = some d ↔ v = rootVal d := by
  constructor
  · intro h
    cases v with
    | none => cases h
    | str _ => cases h
    | list l =>
      unfold rootOf at h
      unfold rootVal
      induction l generalizing d with
      | nil => cases h; rfl
      | cons x r ih =>
        simp only [List.mapM_cons, Option.bind_eq_bind, Option.bind_eq_some_iff, Option.pure_def, Option.some.injEq] at h
        obtain ⟨a, ha, b, hb, rfl⟩ := h
        have := ih hb
        cases x with
        | none => cases ha
        | str _ => cases ha
        | list z =>
          cases ha
          rw [List.map_cons, ← Val.list.inj this]
  · rintro rfl; exact rootOf_rootVal d

theorem root_put {v v' w : Val} {q : List Nat} {d : List (List Val)} (hv : v = rootVal d) (hs : setAt v q w = some v') (hq : ∃ i k q', q = i :: k :: q') : ∃ d', v' = rootVal d' ∧ PutAt q w d d' := by
  obtain ⟨i, k, q', rfl⟩ := hq
  obtain ⟨d', hd'⟩ := (setAt_root hs).mp ⟨d, hv⟩
  refine ⟨d', hd', ?_⟩
  unfold PutAt
  rw [← hv, hs, hd']

/-- **C83, the name of an object.**  In the description of an object the name `n` is replaced by `n'` (the comment and the synonyms may change as well).  Then the object is built: its identifier is the
same, its name is `n'`, and of its files only the one with its identifier can differ.  At the top level, for an object that is not borrowed, this file has at the place of the name the new one, with the
prefix of the build, and the same data elsewhere; nested and borrowed objects give the same file as before. -/
theorem C83_name {y : Bld} {k : Kind} {es : List Entry} {S S' : Text → Option Bytes} {j j' : JT} {n' : Text} (hk : (sources k).Nodup)
    (he : DescriptionEdit k ["name".toList, "name2".toList, "comment".toList] S S' j j') (hn : entry j' "name".toList = some (.str n')) {g : Given} {fs : List (Text × Node)}
    (h : buildFull y k es S = some (some g, fs)) : ∃ d d' fs', buildFull y k es S' = some (some { g with nm := n' }, fs') ∧ OnlyData y.win g.uu d d' fs fs' ∧
      (('/' ∉ y.parent ∧ Native k.cls.path (rootVal d)) ∧ PutAt (k.cls.path ++ [2]) (.str (strEncode (y.p ++ n'))) d d' ∨
        ¬ ('/' ∉ y.parent ∧ Native k.cls.path (rootVal d)) ∧ d' = d) := by
  rcases full_desc hk he (by decide) h with ⟨h0, _, _⟩ | ⟨bi, bo, bo', u, n, v, d, hid, hj, hj', hv, hd, hg, a, r, rfl, hback⟩
  · cases h0
  · cases hg
    obtain ⟨v', hv', hx⟩ := val_name (s := ⟨bi, bo⟩) (s' := ⟨bi, bo'⟩) rfl hj hj' (he.same _ (by decide)) hn hv
    have hdv := root_some.mp hd
    subst hdv
    rcases hx with ⟨h1, h2⟩ | ⟨h1, rfl⟩
    · obtain ⟨d', hd', hput⟩ := root_put rfl h2 ⟨0, 1, k.cls.rest ++ [2], rfl⟩
      exact ⟨d, d', _, hback _ _ d' hv' (root_some.mpr hd'), ⟨a, r, rfl, rfl⟩, .inl ⟨h1, hput⟩⟩
    · exact ⟨d, d, _, hback _ _ d hv' hd, ⟨a, r, rfl, rfl⟩, .inr ⟨h1, rfl⟩⟩

/-- **C83, a value of the header.**  In the raw data of an object, as the description keeps them, the value at the place `q` is replaced by `w`.  The place is none of those the build fills - the
identifier, the name, the lists of nested objects - and the class is not one with the version in the comment or identifiers in the id file.  Then the object is built with the same identifier and name;
the file with its identifier has `w` at the place `q` and the same data elsewhere, all other files are the same. -/
theorem C83_header {y : Bld} {k : Kind} {es : List Entry} {S S' : Text → Option Bytes} {j j' : JT} {root root' w : Val} {q : List Nat} (hk : (sources k).Nodup) (hids : k.cls.ids = [])
    (hst : k.cls.stamp = false) (he : DescriptionEdit k ["header".toList, "name2".toList, "comment".toList] S S' j j') (hr : treeAt j "header".toList = some root)
    (hr' : treeAt j' "header".toList = some root') (hq : Free k.cls q) (hset : setAt root q w = some root') {g : Given} {fs : List (Text × Node)}
    (h : buildFull y k es S = some (some g, fs)) : ∃ d d' fs', buildFull y k es S' = some (some g, fs') ∧ OnlyData y.win g.uu d d' fs fs' ∧ PutAt q w d d' := by
  rcases full_desc hk he (by decide) h with ⟨h0, _, _⟩ | ⟨bi, bo, bo', u, n, v, d, hid, hj, hj', hv, hd, hg, a, r, rfl, hback⟩
  · cases h0
  · cases hg
    obtain ⟨v', hv', hx⟩ := val_header (s := ⟨bi, bo⟩) (s' := ⟨bi, bo'⟩) hids hst rfl hj hj' (he.same _ (by decide)) hr hr' hq hset hv
    have hdv := root_some.mp hd
    subst hdv
    obtain ⟨d', hd', hput⟩ := root_put rfl hx hq.long
    exact ⟨d, d', _, hback _ _ d' hv' (root_some.mpr hd'), ⟨a, r, rfl, rfl⟩, hput⟩

/-- **C83, what is not built.**  The comment and the synonyms in the description of an object are not read: the build gives the same files whatever is there; the file has the comment and the synonyms
that the raw data in the description have. -/
theorem C83_comment_neg {y : Bld} {k : Kind} {es : List Entry} {S S' : Text → Option Bytes} {j j' : JT} (hk : (sources k).Nodup)
    (he : DescriptionEdit k ["name2".toList, "comment".toList] S S' j j') {r : Option Given × List (Text × Node)} (h : buildFull y k es S = some r) : buildFull y k es S' = some r := by
  obtain ⟨g, fs⟩ := r
  rcases full_desc hk he (by decide) h with ⟨rfl, h1, rfl⟩ | ⟨bi, bo, bo', u, n, v, d, hid, hj, hj', hv, hd, rfl, a, r, rfl, hback⟩
  · exact h1
  · refine hback n v d ?_ hd
    rw [build_steps] at hv ⊢
    obtain ⟨jid, j0, root, r0, r1, r2, h1, h2, hu, hn0, hr0, hrest⟩ := hv
    cases hj.symm.trans h2
    exact ⟨jid, j', root, r0, r1, r2, h1, hj', hu, by rw [textAt_entry, he.same _ (by decide), ← textAt_entry]; exact hn0, by rw [treeAt_entry, he.same _ (by decide), ← treeAt_entry]; exact hr0, hrest⟩

end V8.Describe
