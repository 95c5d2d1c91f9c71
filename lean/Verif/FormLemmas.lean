import Verif.Form
import Verif.ModuleLemmas
/-
Lemmas about the model of managed forms.
-/
namespace V8.Form
open V8.Brace V8.Dec V8.Module

/-! ### counters -/

theorem count_show (n : Nat) : count (.str (showNat n)) = some n := by
  rw [count, parse_showNat]
  simp

theorem count_some (v : Val) (n : Nat) (h : count v = some n) : v = .str (showNat n) := by
  cases v with
  | none => cases h
  | list _ => cases h
  | str t =>
    rw [count] at h
    cases hp : parseInt t with
    | none => rw [hp] at h; cases h
    | some m =>
      rw [hp] at h
      simp only at h
      by_cases hc : 0 ≤ m ∧ showNat m.toNat = t
      · rw [if_pos hc] at h; cases h; rw [hc.2]
      · rw [if_neg hc] at h; cases h

theorem countAt_some (raw : List Val) (i n : Nat) (h : countAt raw i = some n) : raw[i]? = some (.str (showNat n)) := by
  rw [countAt] at h
  cases hr : raw[i]? with
  | none => rw [hr] at h; cases h
  | some v => rw [hr] at h; rw [count_some v n h]

theorem countAt_congr (raw raw' : List Val) (i : Nat) (h : raw'[i]? = raw[i]?) : countAt raw' i = countAt raw i := by
  rw [countAt, countAt, h]

/-- every step forward is positive and the last one is not a counter: so are all tables of the program -/
def Ends : List (Nat × Nat) → Bool
  | [] => false
  | [(c, s)] => decide (0 < c) && decide (s = 0)
  | (c, _) :: r => decide (0 < c) && Ends r

theorem calcOffset_lt (raw : List Val) : ∀ (cs : List (Nat × Nat)) (j i : Nat), Ends cs = true → calcOffset raw cs j = some i → j < i
  | [], _, _, h, _ => by cases h
  | [(c, s)], j, i, h, hc => by
    simp only [Ends, Bool.and_eq_true, decide_eq_true_eq] at h
    rw [calcOffset, if_pos h.2, calcOffset] at hc
    cases hc
    omega
  | (c, s) :: b :: r, j, i, h, hc => by
    rw [Ends] at h
    · simp only [Bool.and_eq_true, decide_eq_true_eq] at h
      rw [calcOffset] at hc
      by_cases hs : s = 0
      · rw [if_pos hs] at hc
        have := calcOffset_lt raw (b :: r) _ i h.2 hc
        omega
      · rw [if_neg hs] at hc
        cases hv : countAt raw (j + c) with
        | none => rw [hv] at hc; cases hc
        | some v =>
          rw [hv] at hc
          have := calcOffset_lt raw (b :: r) _ i h.2 hc
          omega
    · intro e; cases e

theorem calcOffset_congr (raw raw' : List Val) : ∀ (cs : List (Nat × Nat)) (j i : Nat), Ends cs = true → calcOffset raw cs j = some i →
    (∀ m, m < i → raw'[m]? = raw[m]?) → calcOffset raw' cs j = some i
  | [], _, _, h, _, _ => by cases h
  | [(c, s)], j, i, h, hc, _ => by
    simp only [Ends, Bool.and_eq_true, decide_eq_true_eq] at h
    rw [calcOffset, if_pos h.2, calcOffset] at hc ⊢
    exact hc
  | (c, s) :: b :: r, j, i, h, hc, hm => by
    have h0 := h
    rw [Ends] at h
    · simp only [Bool.and_eq_true, decide_eq_true_eq] at h
      rw [calcOffset] at hc ⊢
      by_cases hs : s = 0
      · rw [if_pos hs] at hc ⊢
        exact calcOffset_congr raw raw' (b :: r) _ i h.2 hc hm
      · rw [if_neg hs] at hc ⊢
        cases hv : countAt raw (j + c) with
        | none => rw [hv] at hc; cases hc
        | some v =>
          rw [hv] at hc
          simp only at hc
          have := calcOffset_lt raw (b :: r) _ i h.2 hc
          rw [countAt_congr raw raw' (j + c) (hm _ (by omega)), hv]
          exact calcOffset_congr raw raw' (b :: r) _ i h.2 hc hm
    · intro e; cases e

/-! ### paths -/

theorem starts_sep (pat a b : Text) (h : '/' ∉ pat) : Str.starts pat (a ++ '/' :: b) = Str.starts pat a := by
  induction pat generalizing a with
  | nil => cases a <;> rfl
  | cons p pat ih =>
    simp only [List.mem_cons, not_or] at h
    cases a with
    | nil =>
      show (p == '/' && _) = false
      have : (p == '/') = false := by simpa using Ne.symm h.1
      rw [this]; rfl
    | cons c a =>
      show (p == c && Str.starts pat (a ++ '/' :: b)) = (p == c && Str.starts pat a)
      rw [ih a h.2]

theorem occurs_sep (pat a b : Text) (h : '/' ∉ pat) (hne : pat ≠ []) : occurs pat (a ++ '/' :: b) = (occurs pat a || occurs pat b) := by
  induction a with
  | nil =>
    have e1 : Str.starts pat ('/' :: b) = Str.starts pat [] := starts_sep pat [] b h
    have e2 : Str.starts pat [] = false := by
      cases pat with
      | nil => exact absurd rfl hne
      | cons => rfl
    show (Str.starts pat ('/' :: b) || occurs pat b) = (Str.starts pat [] || occurs pat b)
    rw [e1]
  | cons c a ih =>
    have := starts_sep pat (c :: a) b h
    rw [List.cons_append] at this
    rw [List.cons_append, occurs, occurs, ih, this, Bool.or_assoc]

theorem replaceAll_none (pat new : Text) : ∀ (n : Nat) (s : Text), occurs pat s = false → Misc.replaceAll pat new n s = s
  | 0, _, _ => rfl
  | _ + 1, [], _ => rfl
  | n + 1, c :: t, h => by
    rw [occurs, Bool.or_eq_false_iff] at h
    rw [Misc.replaceAll, if_neg (by rw [h.1]; simp), replaceAll_none pat new n t h.2]

theorem replaceAll_sep (pat new : Text) (h : '/' ∉ pat) (hne : pat ≠ []) (a b : Text) (ha : occurs pat a = false) :
    Misc.replaceAll pat new (a ++ '/' :: b).length (a ++ '/' :: b) = a ++ '/' :: Misc.replaceAll pat new b.length b := by
  induction a with
  | nil =>
    have e1 : Str.starts pat ('/' :: b) = Str.starts pat [] := starts_sep pat [] b h
    have e2 : Str.starts pat [] = false := by
      cases pat with
      | nil => exact absurd rfl hne
      | cons => rfl
    rw [List.nil_append, List.length_cons, Misc.replaceAll, if_neg (by rw [e1, e2]; simp)]
    rfl
  | cons c a ih =>
    rw [occurs, Bool.or_eq_false_iff] at ha
    have := starts_sep pat (c :: a) b h
    rw [List.cons_append] at this
    rw [List.cons_append, List.length_cons, Misc.replaceAll, if_neg (by rw [this, ha.1]; simp), ih ha.2]
    rfl

theorem occurs_drop (pat : Text) : ∀ (n : Nat) (s : Text), occurs pat s = false → occurs pat (s.drop n) = false
  | 0, s, h => h
  | n + 1, [], h => h
  | n + 1, c :: t, h => by
    rw [occurs, Bool.or_eq_false_iff] at h
    exact occurs_drop pat n t h.2

theorem starts_iff (p s : Text) : Str.starts p s = true ↔ s = p ++ s.drop p.length := by
  rw [Str.starts, List.isPrefixOf_iff_prefix]
  constructor
  · rintro ⟨t, rfl⟩; rw [List.drop_left]
  · intro h; exact ⟨_, h.symm⟩

/-- the word `includr_` is not in the name except, for a group, at its beginning -/
def NameOk : Kind → Text → Prop
  | .group, name => occurs includr (name.drop 1) = false
  | _, name => occurs includr name = false

theorem occurs_include (r : Text) (h : occurs includr r = false) : occurs includr (include' ++ r) = false := by
  show (false || (false || (false || (false || (false || (false || (false || (false || occurs includr r)))))))) = false
  rw [h]; rfl

theorem groupName (name : Text) (h : occurs includr (name.drop 1) = false) :
    Misc.replaceAll includr include' name.length name = (if name.take 8 = includr then include' ++ name.drop 8 else name) ∧
    occurs includr (if name.take 8 = includr then include' ++ name.drop 8 else name) = false := by
  by_cases ht : name.take 8 = includr
  · rw [if_pos ht]
    have h8 : occurs includr (name.drop 8) = false := by
      have := occurs_drop includr 7 _ h
      rw [List.drop_drop] at this
      exact this
    refine ⟨?_, occurs_include _ h8⟩
    have hs : name = includr ++ name.drop 8 := by rw [← ht, List.take_append_drop]
    have hst : Str.starts includr name = true := (starts_iff includr name).mpr hs
    cases name with
    | nil => cases ht
    | cons c t =>
      rw [List.length_cons, Misc.replaceAll, if_pos hst]
      show include' ++ Misc.replaceAll includr include' t.length ((c :: t).drop 8) = _
      rw [replaceAll_none _ _ _ _ h8]
  · rw [if_neg ht]
    have hn : occurs includr name = false := by
      cases name with
      | nil => rfl
      | cons c t =>
        rw [occurs]
        have hst : Str.starts includr (c :: t) = false := by
          cases hx : Str.starts includr (c :: t) with
          | false => rfl
          | true =>
            have := (starts_iff includr (c :: t)).mp hx
            exact absurd (by rw [this]; rfl) ht
        rw [hst]
        exact h
    exact ⟨replaceAll_none _ _ _ _ hn, hn⟩

theorem occurs_key (pat path name : Text) (h : '/' ∉ pat) (hne : pat ≠ []) (hp : occurs pat path = false) :
    occurs pat (key path name) = occurs pat name := by
  rw [key]
  by_cases h0 : path = []
  · rw [if_pos h0]
  · rw [if_neg h0, occurs_sep pat path name h hne, hp, Bool.false_or]

theorem includr_noSep : '/' ∉ includr := by decide
theorem includr_ne : includr ≠ [] := by decide

/-- extraction and build agree about the path of the nested elements -/
theorem childPath_eq (k : Kind) (path name : Text) (hp : occurs includr path = false) (hn : NameOk k name) :
    childPath k path name = childPathIn k path name ∧ occurs includr (childPathIn k path name) = false := by
  cases k with
  | group =>
    obtain ⟨h1, h2⟩ := groupName name hn
    refine ⟨?_, ?_⟩
    · show Misc.replaceAll includr include' (key path name).length (key path name) = key path _
      rw [key, key]
      by_cases h0 : path = []
      · rw [if_pos h0, if_pos h0, h1]
      · rw [if_neg h0, if_neg h0, replaceAll_sep includr include' includr_noSep includr_ne path name hp, h1]
    · show occurs includr (key path _) = false
      rw [occurs_key _ _ _ includr_noSep includr_ne hp, h2]
  | field => exact ⟨rfl, by show occurs includr (key path name) = false; rw [occurs_key _ _ _ includr_noSep includr_ne hp]; exact hn⟩
  | button => exact ⟨rfl, by show occurs includr (key path name) = false; rw [occurs_key _ _ _ includr_noSep includr_ne hp]; exact hn⟩
  | decoration => exact ⟨rfl, by show occurs includr (key path name) = false; rw [occurs_key _ _ _ includr_noSep includr_ne hp]; exact hn⟩
  | table => exact ⟨rfl, by show occurs includr (key path name) = false; rw [occurs_key _ _ _ includr_noSep includr_ne hp]; exact hn⟩
  | itemAddition => exact ⟨rfl, by show occurs includr (key path name) = false; rw [occurs_key _ _ _ includr_noSep includr_ne hp]; exact hn⟩

/-! ### dictionaries -/

theorem dictGet_mem {α β : Type} [DecidableEq α] (d : List (α × β)) (hn : (d.map (·.1)).Nodup) (e : α × β) (he : e ∈ d) :
    dictGet d e.1 = some e.2 := by
  rw [dictGet]
  have hf : ∃ x, d.reverse.find? (fun y => decide (y.1 = e.1)) = some x := by
    cases h : d.reverse.find? (fun y => decide (y.1 = e.1)) with
    | some x => exact ⟨x, rfl⟩
    | none =>
      rw [List.find?_eq_none] at h
      exact absurd (by simp) (h e (List.mem_reverse.mpr he))
  obtain ⟨x, hx⟩ := hf
  have hx1 : x.1 = e.1 := by simpa using List.find?_some hx
  have hx2 : x ∈ d := List.mem_reverse.mp (List.mem_of_find?_eq_some hx)
  have : x = e := by
    clear hx
    induction d with
    | nil => cases he
    | cons y d ih =>
      rw [List.map_cons, List.nodup_cons] at hn
      rcases List.mem_cons.mp he with h1 | h1
      · rcases List.mem_cons.mp hx2 with h2 | h2
        · rw [h1, h2]
        · exact absurd (List.mem_map.mpr ⟨x, h2, by rw [hx1, h1]⟩) hn.1
      · rcases List.mem_cons.mp hx2 with h2 | h2
        · exact absurd (List.mem_map.mpr ⟨e, h1, by rw [← hx1, h2]⟩) hn.1
        · exact ih hn.2 h1 h2
  rw [hx, this]
  rfl

/-! ### elements -/

/-- every element of a tree, with the path of its parent at build time -/
def places : Text → List Node → List (Text × Text × Kind)
  | _, [] => []
  | path, .mk name k child :: r => (path, name, k) :: (places (childPathIn k path name) child ++ places path r)
termination_by _ l => sizeOf l

theorem kindOf_uuid (u : Text) (k : Kind) (h : kindOf u = some k) : k.uuid = u := by
  simpa using List.find?_some h

theorem Kind.ends_child (k : Kind) (cs : List (Nat × Nat)) (h : k.child = some cs) : Ends cs = true := by
  cases k <;> cases h <;> rfl

/-- a place is fine: extraction and build agree about the path, and the links of the element are not changed by the build -/
def Fine (P : List (Text × PropId)) (C : List (Text × Val)) (D : List (Text × Data)) (pl : Text × Text × Kind) : Prop :=
  (pl.2.2.child ≠ none → NameOk pl.2.2 pl.2.1) ∧
    ∀ d, dictGet D (key pl.1 pl.2.1) = some d → relink P C pl.2.2 pl.2.1 (key pl.1 pl.2.1) d = some d.raw

theorem pairs_rt (f : Kind → List Val → Option (Node × List (Text × Data))) (g : Node → Option (List Val)) (path : Text)
    (P : List (Text × PropId)) (C : List (Text × Val)) (D : List (Text × Data))
    (hfg : ∀ k raw node es, f k raw = some (node, es) → (∀ pl ∈ places path [node], Fine P C D pl) →
      (∀ e ∈ es, dictGet D e.1 = some e.2) → g node = some raw)
    (hk : ∀ k raw node es, f k raw = some (node, es) → ∃ name child, node = .mk name k child) :
    ∀ (n : Nat) (l : List Val) (nodes : List Node) (es : List (Text × Data)), decodePairs f n l = some (nodes, es) →
      (∀ pl ∈ places path nodes, Fine P C D pl) → (∀ e ∈ es, dictGet D e.1 = some e.2) →
      encodePairs g nodes = some (l.take (n * 2)) ∧ nodes.length = n := by
  intro n
  induction n with
  | zero =>
    intro l nodes es h _ _
    rw [decodePairs] at h
    cases h
    exact ⟨by simp [encodePairs], rfl⟩
  | succ n ih =>
    intro l nodes es h hp hd
    match l, h with
    | .str u :: .list raw :: rest, h =>
      rw [decodePairs] at h
      cases hu : kindOf u with
      | none => rw [hu] at h; cases h
      | some k =>
        rw [hu] at h
        simp only at h
        cases h1 : f k raw with
        | none => rw [h1] at h; cases h
        | some q =>
          obtain ⟨node, es1⟩ := q
          rw [h1] at h
          simp only at h
          cases h2 : decodePairs f n rest with
          | none => rw [h2] at h; cases h
          | some q2 =>
            obtain ⟨nodes2, es2⟩ := q2
            rw [h2] at h
            cases h
            obtain ⟨name, child, rfl⟩ := hk k raw node es1 h1
            have e1 : places path (.mk name k child :: nodes2) = places path [.mk name k child] ++ places path nodes2 := by
              rw [places, places, places, List.append_nil, List.cons_append]
            rw [e1] at hp
            have r1 := hfg k raw _ es1 h1 (fun pl hpl => hp pl (List.mem_append_left _ hpl)) (fun e he => hd e (List.mem_append_left _ he))
            obtain ⟨r2, r3⟩ := ih rest nodes2 es2 h2 (fun pl hpl => hp pl (List.mem_append_right _ hpl))
              (fun e he => hd e (List.mem_append_right _ he))
            refine ⟨?_, by rw [List.length_cons, r3]⟩
            rw [encodePairs, r1, r2]
            simp only [kindOf_uuid u k hu, Nat.succ_mul, List.take_succ_cons]
    | [], h => cases h
    | [v], h => cases v <;> cases h
    | .none :: _ :: _, h => cases h
    | .list _ :: _ :: _, h => cases h
    | .str _ :: .none :: _, h => cases h
    | .str _ :: .str _ :: _, h => cases h

/-- putting back what `decodeList` took out -/
theorem list_rt (f : Kind → List Val → Option (Node × List (Text × Data))) (g : Node → Option (List Val)) (path : Text)
    (P : List (Text × PropId)) (C : List (Text × Val)) (D : List (Text × Data))
    (hfg : ∀ k raw node es, f k raw = some (node, es) → (∀ pl ∈ places path [node], Fine P C D pl) →
      (∀ e ∈ es, dictGet D e.1 = some e.2) → g node = some raw)
    (hk : ∀ k raw node es, f k raw = some (node, es) → ∃ name child, node = .mk name k child)
    (i : Nat) (raw raw' : List Val) (nodes : List Node) (es : List (Text × Data)) (h : decodeList f i raw = some (raw', nodes, es))
    (hp : ∀ pl ∈ places path nodes, Fine P C D pl) (hd : ∀ e ∈ es, dictGet D e.1 = some e.2) :
    (nodes = [] ∧ raw' = raw) ∨
      (nodes ≠ [] ∧ raw'[i]? = some (.str marker) ∧ (∀ m, m < i → raw'[m]? = raw[m]?) ∧ encodeList g nodes i raw' = some raw) := by
  rw [decodeList] at h
  cases hc : countAt raw i with
  | none => rw [hc] at h; cases h
  | some n =>
    rw [hc] at h
    cases n with
    | zero => cases h; exact Or.inl ⟨rfl, rfl⟩
    | succ n =>
      simp only at h
      cases h2 : decodePairs f (n + 1) (raw.drop (i + 1)) with
      | none => rw [h2] at h; cases h
      | some q =>
        obtain ⟨nodes2, es2⟩ := q
        rw [h2] at h
        cases h
        obtain ⟨r1, r2⟩ := pairs_rt f g path P C D hfg hk (n + 1) _ _ _ h2 hp hd
        have hi : raw[i]? = some (.str (showNat (n + 1))) := countAt_some raw i (n + 1) hc
        have hil : i < raw.length := by rw [List.getElem?_eq_some_iff] at hi; exact hi.1
        have htl : (raw.take i).length = i := by rw [List.length_take]; omega
        refine Or.inr ⟨(by intro h0; rw [h0] at r2; cases r2), ?_, ?_, ?_⟩
        · rw [List.getElem?_append_right (by omega), htl, Nat.sub_self]; rfl
        · intro m hm
          rw [List.getElem?_append_left (by omega), List.getElem?_take_of_lt hm]
        · rw [encodeList, r1]
          simp only
          rw [if_pos (by rw [List.length_append, htl, List.length_cons]; omega), r2]
          have e1 : (raw.take i ++ Val.str marker :: raw.drop (i + 1 + (n + 1) * 2)).take i = raw.take i := by
            rw [List.take_append_of_le_length (by omega), List.take_of_length_le (by omega)]
          have e2 : (raw.take i ++ Val.str marker :: raw.drop (i + 1 + (n + 1) * 2)).drop (i + 1) = raw.drop (i + 1 + (n + 1) * 2) := by
            rw [List.drop_append, htl, List.drop_of_length_le (by omega), List.nil_append, Nat.add_sub_cancel_left]
            rfl
          rw [e1, e2]
          congr 1
          have e3 : (raw.drop (i + 1)).take ((n + 1) * 2) ++ raw.drop (i + 1 + (n + 1) * 2) = raw.drop (i + 1) := by
            rw [← List.drop_drop (i := (n + 1) * 2) (j := i + 1), List.take_append_drop]
          rw [List.append_assoc, List.cons_append, e3]
          have e4 : raw.drop i = raw[i] :: raw.drop (i + 1) := List.drop_eq_getElem_cons hil
          have e5 : raw[i] = .str (showNat (n + 1)) := by
            rw [List.getElem?_eq_getElem hil] at hi
            exact Option.some.inj hi
          rw [← e5, ← e4, List.take_append_drop]

theorem decodeElem_node (P : PropsById) (C : List (Val × Text)) (depth : Nat) (path : Text) (k : Kind) (raw : List Val) (node : Node)
    (es : List (Text × Data)) (h : decodeElem P C depth path k raw = some (node, es)) : ∃ name child, node = .mk name k child := by
  cases depth with
  | zero => cases h
  | succ depth =>
    rw [decodeElem] at h
    by_cases hs : sizeOk k raw = false
    · rw [if_pos hs] at h; cases h
    · rw [if_neg hs] at h
      cases h1 : elemProp P k raw with
      | none => rw [h1] at h; cases h
      | some prop => cases h2 : elemCommand C k raw with
        | none => rw [h1, h2] at h; cases h
        | some command => cases h3 : elemName k raw with
          | none => rw [h1, h2, h3] at h; cases h
          | some name =>
            rw [h1, h2, h3] at h
            simp only at h
            cases hc : k.child with
            | none => rw [hc] at h; cases h; exact ⟨_, _, rfl⟩
            | some cs =>
              rw [hc] at h
              simp only at h
              cases ho : calcOffset raw cs 0 with
              | none => rw [ho] at h; cases h
              | some i =>
                rw [ho] at h
                simp only at h
                cases hd : decodeList (decodeElem P C depth (childPath k path name)) i raw with
                | none => rw [hd] at h; cases h
                | some q => obtain ⟨a, b, c⟩ := q; rw [hd] at h; cases h; exact ⟨_, _, rfl⟩

/-- an element that was taken out with its nested elements is put back as it was -/
theorem elem_rt (P0 : PropsById) (C0 : List (Val × Text)) (P : List (Text × PropId)) (C : List (Text × Val)) (D : List (Text × Data)) :
    ∀ (depth : Nat) (path : Text) (k : Kind) (raw : List Val) (node : Node) (es : List (Text × Data)),
      decodeElem P0 C0 depth path k raw = some (node, es) → occurs includr path = false →
      (∀ pl ∈ places path [node], Fine P C D pl) → (∀ e ∈ es, dictGet D e.1 = some e.2) →
      encodeElem P C D depth path node = some raw := by
  intro depth
  induction depth with
  | zero => intro path k raw node es h; cases h
  | succ depth ih =>
    intro path k raw node es h hp hf hd
    rw [decodeElem] at h
    by_cases hs : sizeOk k raw = false
    · rw [if_pos hs] at h; cases h
    · rw [if_neg hs] at h
      cases h1 : elemProp P0 k raw with
      | none => rw [h1] at h; cases h
      | some prop => cases h2 : elemCommand C0 k raw with
        | none => rw [h1, h2] at h; cases h
        | some command => cases h3 : elemName k raw with
          | none => rw [h1, h2, h3] at h; cases h
          | some name =>
            rw [h1, h2, h3] at h
            simp only at h
            cases hc : k.child with
            | none =>
              rw [hc] at h
              cases h
              have hd1 := hd _ (List.mem_singleton.mpr rfl)
              have hf1 := (hf (path, name, k) (by rw [places]; exact List.mem_cons_self)).2 _ hd1
              rw [encodeElem, hd1]
              simp only [hf1, hc]
            | some cs =>
              rw [hc] at h
              simp only at h
              cases ho : calcOffset raw cs 0 with
              | none => rw [ho] at h; cases h
              | some i =>
                rw [ho] at h
                simp only at h
                cases hl : decodeList (decodeElem P0 C0 depth (childPath k path name)) i raw with
                | none => rw [hl] at h; cases h
                | some q =>
                  obtain ⟨raw', nodes, es'⟩ := q
                  rw [hl] at h
                  cases h
                  have hd1 := hd _ List.mem_cons_self
                  have hf0 := hf (path, name, k) (by rw [places]; exact List.mem_cons_self)
                  have hf1 := hf0.2 _ hd1
                  obtain ⟨hc1, hc2⟩ := childPath_eq k path name hp (hf0.1 (by rw [hc]; simp))
                  rw [hc1] at hl
                  have hsub : ∀ pl ∈ places (childPathIn k path name) nodes, Fine P C D pl := by
                    intro pl hpl
                    exact hf pl (by rw [places]; exact List.mem_cons_of_mem _ (List.mem_append_left _ hpl))
                  have := list_rt (decodeElem P0 C0 depth (childPathIn k path name)) (encodeElem P C D depth (childPathIn k path name))
                    (childPathIn k path name) P C D (fun k raw node es h hf hd => ih _ k raw node es h hc2 hf hd)
                    (fun k raw node es h => decodeElem_node _ _ _ _ k raw node es h) i raw raw' nodes es' hl hsub
                    (fun e he => hd e (List.mem_cons_of_mem _ he))
                  rw [encodeElem, hd1]
                  simp only [hf1, hc]
                  rcases this with ⟨rfl, rfl⟩ | ⟨hne, _, hm, he⟩
                  · rfl
                  · have hoff := calcOffset_congr raw raw' cs 0 i (Kind.ends_child k cs hc) ho hm
                    cases nodes with
                    | nil => exact absurd rfl hne
                    | cons c r => simp only [hoff]; exact he

end V8.Form
