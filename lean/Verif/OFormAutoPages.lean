import Verif.OFormRenum
import Verif.OFormRefs
/-
The pages of a panel when what is tied to the panel is taken away first.
-/
namespace V8.OAuto
open V8.Brace V8.Dec
open V8.Form (count countAt dictGet marker nonEmpty calcOffset truthy Rec countAt_congr countAt_some idx nameAt)
open V8.OForm hiding formOut formIn elemOut elemIn elemsOut elemsIn elemsLoop

/-! ### the offset of the pages -/

theorem countAt_append (A R : List Val) (i : Nat) : countAt (A ++ R) (A.length + i) = countAt R i := by
  rw [countAt, countAt, List.getElem?_append_right (by omega), Nat.add_sub_cancel_left]

theorem drop_shift (A R : List Val) (i : Nat) : (A ++ R).drop (A.length + i) = R.drop i := by
  rw [← List.drop_drop, List.drop_left]

theorem take_shift (A R : List Val) (i : Nat) : (A ++ R).take (A.length + i) = A ++ R.take i := by
  rw [List.take_append, List.take_of_length_le (by omega), Nat.add_sub_cancel_left]

theorem countAt_drop (l : List Val) (k i : Nat) : countAt (l.drop k) i = countAt l (k + i) := by
  rw [countAt, countAt, List.getElem?_drop]

theorem calcOffset_shift (A R : List Val) : ∀ (cs : List (Nat × Nat)) (i : Nat),
    calcOffset (A ++ R) cs (A.length + i) = (calcOffset R cs i).map (fun o => A.length + o)
  | [], i => rfl
  | (c, s) :: r, i => by
    rw [calcOffset, calcOffset]
    by_cases hs : s = 0
    · rw [if_pos hs, if_pos hs, Nat.add_assoc, calcOffset_shift A R r]
    · rw [if_neg hs, if_neg hs, Nat.add_assoc, countAt_append]
      cases countAt R (i + c) with
      | none => rfl
      | some v => simp only; rw [Nat.add_assoc, calcOffset_shift A R r]

/-- the table of the pages behind the four lists -/
def restTable : List (Nat × Nat) := [(0, 1), (1, 1), (4, 0)]

theorem offset_split (A R : List Val) (hA : skipLists 4 ((A ++ R).drop 2) = some R) (hl : A.length ≠ 0) :
    calcOffset (A ++ R) pagesTable 0 = (calcOffset R restTable 0).map (fun o => A.length + o) := by
  have hlen : ∀ (k : Nat) (l r : List Val), skipLists k l = some r → ∃ m, r = l.drop m := by
    intro k
    induction k with
    | zero => intro l r h; cases h; exact ⟨0, rfl⟩
    | succ k ih =>
      intro l r h
      rw [skipLists, Option.bind_eq_some_iff] at h
      obtain ⟨n, _, h⟩ := h
      obtain ⟨m, hm⟩ := ih _ _ h
      exact ⟨1 + n + m, by rw [hm, List.drop_drop]⟩
  generalize hraw : A ++ R = raw at hA
  rw [skipLists, Option.bind_eq_some_iff] at hA
  obtain ⟨n1, c1, hA⟩ := hA
  rw [skipLists, Option.bind_eq_some_iff] at hA
  obtain ⟨n2, c2, hA⟩ := hA
  rw [skipLists, Option.bind_eq_some_iff] at hA
  obtain ⟨n3, c3, hA⟩ := hA
  rw [skipLists, Option.bind_eq_some_iff] at hA
  obtain ⟨n4, c4, hA⟩ := hA
  rw [skipLists] at hA
  have hA := Option.some.inj hA
  simp only [List.drop_drop, countAt_drop] at c1 c2 c3 c4 hA
  have e : calcOffset raw pagesTable 0 = calcOffset raw restTable (6 + n1 + n2 + n3 + n4) := by
    rw [pagesTable, calcOffset, if_neg (by omega), show (0 : Nat) + 2 = 2 from rfl, show countAt raw 2 = some n1 from c1]
    simp only
    rw [calcOffset, if_neg (by omega), show 2 + n1 * 1 + 1 = 2 + (1 + n1) + 0 by omega, c2]
    simp only
    rw [calcOffset, if_neg (by omega), show 2 + (1 + n1) + 0 + n2 * 1 + 1 = 2 + (1 + n1) + (1 + n2) + 0 by omega, c3]
    simp only
    rw [calcOffset, if_neg (by omega), show 2 + (1 + n1) + (1 + n2) + 0 + n3 * 1 + 1 = 2 + (1 + n1) + (1 + n2) + (1 + n3) + 0 by omega, c4]
    simp only
    rw [restTable, calcOffset, if_neg (by omega), calcOffset, if_neg (by omega)]
    rw [show 2 + (1 + n1) + (1 + n2) + (1 + n3) + 0 + n4 * 1 + 1 = 6 + n1 + n2 + n3 + n4 + 0 by omega]
  rw [e]
  have hk : R = raw.drop (6 + n1 + n2 + n3 + n4) := by rw [← hA]; congr 1; omega
  by_cases hle : 6 + n1 + n2 + n3 + n4 ≤ raw.length
  · have hAl : A.length = 6 + n1 + n2 + n3 + n4 := by
      have h1 : raw.length = A.length + R.length := by rw [← hraw, List.length_append]
      have h2 : R.length = raw.length - (6 + n1 + n2 + n3 + n4) := by rw [hk, List.length_drop]
      omega
    rw [← hAl, ← hraw]
    exact calcOffset_shift A R restTable 0
  · have hR : R = [] := by rw [hk]; exact List.drop_of_length_le (by omega)
    rw [restTable, calcOffset, if_neg (by omega), calcOffset, if_neg (by omega)]
    have h1 : countAt raw (6 + n1 + n2 + n3 + n4 + 0) = none := by
      rw [countAt, List.getElem?_eq_none (by omega)]
    have h2 : countAt R (0 + 0) = none := by rw [hR]; rfl
    rw [h1, h2]
    rfl

theorem skip_zeros (R : List Val) : skipLists 4 (Val.str ['0'] :: .str ['0'] :: .str ['0'] :: .str ['0'] :: R) = some R := by
  have h0 : ∀ l, countAt (Val.str ['0'] :: l) 0 = some 0 := fun l => by
    have e : showNat 0 = ['0'] := by rw [showNat]; rfl
    show count (.str ['0']) = some 0
    rw [← e]
    exact Form.count_show 0
  rw [skipLists, h0, Option.bind_some, skipLists]
  simp only [Nat.add_zero, List.drop_succ_cons, List.drop_zero]
  rw [h0, Option.bind_some, skipLists]
  simp only [Nat.add_zero, List.drop_succ_cons, List.drop_zero]
  rw [h0, Option.bind_some, skipLists]
  simp only [Nat.add_zero, List.drop_succ_cons, List.drop_zero]
  rw [h0, Option.bind_some, skipLists]
  rfl

theorem delLists_skip : ∀ (k : Nat) (l : List Val), delLists k l = (skipLists k l).map (fun r => List.replicate k (Val.str ['0']) ++ r)
  | 0, l => rfl
  | k + 1, l => by
    rw [delLists, skipLists]
    cases countAt l 0 with
    | none => rfl
    | some n =>
      rw [Option.bind_some, Option.bind_some, delLists_skip k]
      cases skipLists k (l.drop (1 + n)) with
      | none => rfl
      | some r => rfl

theorem skip_suffix : ∀ (k : Nat) (l r : List Val), skipLists k l = some r → r.length ≤ l.length
  | 0, l, r, h => by cases h; exact Nat.le_refl _
  | k + 1, l, r, h => by
    rw [skipLists, Option.bind_eq_some_iff] at h
    obtain ⟨n, _, h⟩ := h
    have := skip_suffix k _ r h
    rw [List.length_drop] at this
    omega

theorem skip_other (R R1 : List Val) (hne : R ≠ []) : ∀ (k : Nat) (B : List Val), skipLists k (B ++ R) = some R → skipLists k (B ++ R1) = some R1
  | 0, B, h => by
    rw [skipLists] at h
    have h := Option.some.inj h
    have hl := congrArg List.length h
    rw [List.length_append] at hl
    have : B = [] := List.length_eq_zero_iff.mp (by omega)
    rw [this]
    rfl
  | k + 1, B, h => by
    rw [skipLists, Option.bind_eq_some_iff] at h
    obtain ⟨n, hn, h⟩ := h
    have hl := skip_suffix k _ R h
    have hR : 0 < R.length := List.length_pos_iff.mpr hne
    rw [List.length_drop, List.length_append] at hl
    have hB : 1 + n ≤ B.length := by omega
    rw [List.drop_append_of_le_length hB] at h
    have ih := skip_other R R1 hne k _ h
    have hc : countAt (B ++ R1) 0 = some n := by
      rw [countAt, List.getElem?_append_left (by omega)]
      rw [countAt, List.getElem?_append_left (by omega)] at hn
      exact hn
    rw [skipLists, hc, Option.bind_some, List.drop_append_of_le_length hB, ih]

/-- what is left of the lists -/
def zeros (pr : List Val) : List Val := pr.take 2 ++ [.str ['0'], .str ['0'], .str ['0'], .str ['0']]

theorem delAnchored_eq (raw : List Val) : delAnchored raw = (skipLists 4 (raw.drop 2)).map (fun r => zeros raw ++ r) := by
  rw [delAnchored, delLists_skip]
  cases skipLists 4 (raw.drop 2) with
  | none => rfl
  | some r =>
    show some (raw.take 2 ++ (List.replicate 4 (Val.str ['0']) ++ r)) = some (zeros raw ++ r)
    rw [zeros, List.append_assoc]
    rfl

/-! ### the pages behind a prefix -/

/-- decode_pages at a given offset -/
def pagesAt (path : Text) (raw : List Val) (off : Nat) : Option (List Val × List Text × List (Text × Entry)) :=
  match (raw[off]? : Option Val) with
    | some (.list pr) => match countAt pr 1, countAt raw (off + 4) with
      | some n, some m => match pagesLoop path (infoAt raw (off + 4) m n) 0 n (pr.drop 2) with
        | none => none
        | some (names, es) =>
          if pagesWord ∈ names then none
          else some ((raw.set off (.list (pr.take 1 ++ pr.drop (3 + n)))).take (off + 4) ++ .str infoWord :: raw.drop (off + 4 + 1 + m),
            names, es ++ [(calcId path pagesWord [], .pages names)])
      | _, _ => none
    | _ => none

theorem pagesOut_at (path : Text) (raw : List Val) : pagesOut path raw = (calcOffset raw pagesTable 0).bind (pagesAt path raw) := by
  rw [pagesOut]
  cases calcOffset raw pagesTable 0 with
  | none => rfl
  | some off => rfl

theorem pagesLoop_congr (path : Text) (info info' : Nat → List Val) : ∀ (n i : Nat) (l : List Val), (∀ j, i ≤ j → j < i + n → info j = info' j) →
    pagesLoop path info i n l = pagesLoop path info' i n l
  | 0, i, l, _ => by rw [pagesLoop, pagesLoop]
  | n + 1, i, [], _ => by rw [pagesLoop, pagesLoop]
  | n + 1, i, p :: r, h => by
    rw [pagesLoop, pagesLoop, pagesLoop_congr path info info' n (i + 1) r (fun j h1 h2 => h j (by omega) (by omega)), h i (by omega) (by omega)]

/-- the pages are in the usual form, at a given offset -/
def TidyAt (raw : List Val) (off : Nat) : Prop := ∀ pr n m, raw[off]? = some (.list pr) →
  countAt pr 1 = some n → countAt raw (off + 4) = some m →
  pr.length ≤ n + 2 ∧ off + 4 + m < raw.length ∧ (n = 0 → m = 0) ∧ 4 * (n - 1) ≤ m

theorem tidyAt_shift (A R : List Val) (o : Nat) : TidyAt (A ++ R) (A.length + o) ↔ TidyAt R o := by
  have e1 : (A ++ R)[A.length + o]? = R[o]? := by rw [List.getElem?_append_right (by omega), Nat.add_sub_cancel_left]
  have e2 : countAt (A ++ R) (A.length + o + 4) = countAt R (o + 4) := by rw [Nat.add_assoc, countAt_append]
  constructor
  · intro h pr n m h1 h2 h3
    obtain ⟨a, b, c, d⟩ := h pr n m (by rw [e1]; exact h1) h2 (by rw [e2]; exact h3)
    rw [List.length_append] at b
    exact ⟨a, by omega, c, d⟩
  · intro h pr n m h1 h2 h3
    obtain ⟨a, b, c, d⟩ := h pr n m (by rw [← e1]; exact h1) h2 (by rw [← e2]; exact h3)
    rw [List.length_append]
    exact ⟨a, by omega, c, d⟩

theorem pagesAt_shift (path : Text) (A R : List Val) (o : Nat) (ht : TidyAt R o) :
    pagesAt path (A ++ R) (A.length + o) = (pagesAt path R o).map (fun p => (A ++ p.1, p.2)) := by
  have e1 : (A ++ R)[A.length + o]? = R[o]? := by rw [List.getElem?_append_right (by omega), Nat.add_sub_cancel_left]
  have e2 : countAt (A ++ R) (A.length + o + 4) = countAt R (o + 4) := by rw [Nat.add_assoc, countAt_append]
  rw [pagesAt, pagesAt, e1]
  cases hr : R[o]? with
  | none => rfl
  | some v =>
    cases v with
    | none => rfl
    | str _ => rfl
    | list pr =>
      simp only
      rw [e2]
      cases hn : countAt pr 1 with
      | none => rfl
      | some n =>
        cases hm : countAt R (o + 4) with
        | none => rfl
        | some m =>
          obtain ⟨t1, t2, t3, t4⟩ := ht pr n m hr hn hm
          simp only
          rw [pagesLoop_congr path (infoAt (A ++ R) (A.length + o + 4) m n) (infoAt R (o + 4) m n) n 0 _ (by
            intro j _ hj
            rw [infoAt_eq _ _ _ _ _ (by omega) t4, infoAt_eq _ _ _ _ _ (by omega) t4]
            rw [show A.length + o + 4 + 1 = A.length + (o + 4 + 1) by omega, drop_shift])]
          cases hl : pagesLoop path (infoAt R (o + 4) m n) 0 n (pr.drop 2) with
          | none => rfl
          | some q =>
            obtain ⟨names, es⟩ := q
            simp only
            by_cases hw : pagesWord ∈ names
            · rw [if_pos hw, if_pos hw]; rfl
            · rw [if_neg hw, if_neg hw]
              simp only [Option.map_some]
              congr 2
              rw [List.set_append_right _ _ (by omega), Nat.add_sub_cancel_left, Nat.add_assoc, take_shift,
                show A.length + (o + 4) + 1 + m = A.length + (o + 4 + 1 + m) by omega, drop_shift, List.append_assoc]

/-- the pages of a panel are found behind any four lists, and what extraction does to them does not depend on the lists -/
theorem pages_behind (path : Text) (pr pr1 : List Val) (names : List Text) (es : List (Text × Entry))
    (h : pagesOut path pr = some (pr1, names, es)) (ht : TidyPages pr) (R : List Val) (hR : skipLists 4 (pr.drop 2) = some R) :
    ∃ R1, delAnchored pr1 = some (zeros pr ++ R1) ∧ pagesOut path (zeros pr ++ R) = some (zeros pr ++ R1, names, es) ∧ TidyPages (zeros pr ++ R) ∧
      2 ≤ pr.length := by
  have hsplit : ∃ A, pr = A ++ R ∧ 2 ≤ A.length ∧ pr.take 2 = A.take 2 := by
    have hlen : ∀ (k : Nat) (l r : List Val), skipLists k l = some r → ∃ m, r = l.drop m := by
      intro k
      induction k with
      | zero => intro l r h; cases h; exact ⟨0, rfl⟩
      | succ k ih =>
        intro l r h
        rw [skipLists, Option.bind_eq_some_iff] at h
        obtain ⟨n, _, h⟩ := h
        obtain ⟨m, hm⟩ := ih _ _ h
        exact ⟨1 + n + m, by rw [hm, List.drop_drop]⟩
    obtain ⟨m, hm⟩ := hlen 4 _ R hR
    rw [List.drop_drop] at hm
    have h2 : 2 < pr.length := by
      rw [skipLists, Option.bind_eq_some_iff] at hR
      obtain ⟨n, hn, _⟩ := hR
      have := countAt_some _ _ _ hn
      rw [List.getElem?_eq_some_iff] at this
      obtain ⟨hlt, _⟩ := this
      rw [List.length_drop] at hlt
      omega
    refine ⟨pr.take (2 + m), by rw [hm, List.take_append_drop], by rw [List.length_take]; omega, ?_⟩
    rw [List.take_take, Nat.min_eq_left (by omega)]
  obtain ⟨A, rfl, hA2, htk⟩ := hsplit
  have ho := offset_split A R hR (by omega)
  have hz : zeros (A ++ R) = A.take 2 ++ [.str ['0'], .str ['0'], .str ['0'], .str ['0']] := by rw [zeros, htk]
  generalize hZ : zeros (A ++ R) = Z at *
  have hZ2 : Z.drop 2 = [.str ['0'], .str ['0'], .str ['0'], .str ['0']] := by
    rw [hz]
    exact List.drop_left' (by rw [List.length_take]; omega)
  have hZl : Z.length = 6 := by
    rw [hz, List.length_append, List.length_take]
    simp only [List.length_cons, List.length_nil]
    omega
  have hZs : ∀ R, skipLists 4 ((Z ++ R).drop 2) = some R := by
    intro R
    rw [List.drop_append_of_le_length (by omega), hZ2]
    exact skip_zeros R
  have hoZ := offset_split Z R (hZs R) (by omega)
  rw [pagesOut_at, ho] at h
  cases hc : calcOffset R restTable 0 with
  | none => rw [hc] at h; cases h
  | some o =>
    rw [hc] at h ho hoZ
    simp only [Option.map_some, Option.bind_some] at h ho hoZ
    have htA : TidyAt (A ++ R) (A.length + o) := fun pr n m h1 h2 h3 => ht _ pr n m ho h1 h2 h3
    have htR := (tidyAt_shift A R o).mp htA
    rw [pagesAt_shift path A R o htR, Option.map_eq_some_iff] at h
    obtain ⟨⟨R1, nm, es1⟩, hp, he⟩ := h
    simp only [Prod.mk.injEq] at he
    obtain ⟨he1, he2, he3⟩ := he
    subst he2
    subst he3
    refine ⟨R1, ?_, ?_, ?_, by rw [List.length_append]; omega⟩
    · -- the lists of the changed data are the same
      have hne : R ≠ [] := by
        intro e
        rw [e, pagesAt] at hp
        cases hp
      have hd : (A ++ R).drop 2 = A.drop 2 ++ R := List.drop_append_of_le_length hA2
      have hd1 : (A ++ R1).drop 2 = A.drop 2 ++ R1 := List.drop_append_of_le_length hA2
      rw [hd] at hR
      have hc4 : skipLists 4 (pr1.drop 2) = some R1 := by
        rw [← he1, hd1]
        exact skip_other R R1 hne 4 _ hR
      have htk1 : zeros pr1 = Z := by
        rw [zeros, ← he1, List.take_append_of_le_length hA2, hz]
      rw [delAnchored_eq, hc4, htk1]
      rfl
    · rw [pagesOut_at, hoZ, Option.bind_some, pagesAt_shift path Z R o htR, hp]
      rfl
    · intro off pr n m h1 h2 h3 h4
      rw [hoZ] at h1
      cases h1
      exact (tidyAt_shift Z R o).mpr htR pr n m h2 h3 h4

theorem skip_of_offset (pr : List Val) (off : Nat) (h : calcOffset pr pagesTable 0 = some off) : ∃ R, skipLists 4 (pr.drop 2) = some R := by
  have step : ∀ (c : Nat) (r : List (Nat × Nat)) (i : Nat), calcOffset pr ((c, 1) :: r) i = some off →
      ∃ n, countAt pr (i + c) = some n ∧ calcOffset pr r (i + c + n) = some off := by
    intro c r i h
    rw [calcOffset, if_neg (by omega)] at h
    cases hn : countAt pr (i + c) with
    | none => rw [hn] at h; cases h
    | some n => rw [hn] at h; exact ⟨n, rfl, by simpa using h⟩
  rw [pagesTable] at h
  obtain ⟨n1, c1, h⟩ := step _ _ _ h
  obtain ⟨n2, c2, h⟩ := step _ _ _ h
  obtain ⟨n3, c3, h⟩ := step _ _ _ h
  obtain ⟨n4, c4, h⟩ := step _ _ _ h
  have d1 : countAt (pr.drop 2) 0 = some n1 := by rw [countAt_drop]; exact c1
  have d2 : countAt (pr.drop (2 + (1 + n1))) 0 = some n2 := by rw [countAt_drop, ← c2]; congr 1; omega
  have d3 : countAt (pr.drop (2 + (1 + n1) + (1 + n2))) 0 = some n3 := by rw [countAt_drop, ← c3]; congr 1; omega
  have d4 : countAt (pr.drop (2 + (1 + n1) + (1 + n2) + (1 + n3))) 0 = some n4 := by rw [countAt_drop, ← c4]; congr 1; omega
  refine ⟨pr.drop (2 + (1 + n1) + (1 + n2) + (1 + n3) + (1 + n4)), ?_⟩
  rw [skipLists, d1, Option.bind_some, List.drop_drop, skipLists, d2, Option.bind_some, List.drop_drop, skipLists, d3, Option.bind_some,
    List.drop_drop, skipLists, d4, Option.bind_some, List.drop_drop]
  rfl

theorem pagesLoop_keys (path : Text) (info : Nat → List Val) : ∀ (n i : Nat) (l : List Val) (names : List Text) (es : List (Text × Entry)),
    pagesLoop path info i n l = some (names, es) → es.map (·.1) = names.map (fun t => calcId path t []) ∧ names.length = n
  | 0, i, l, names, es, h => by rw [pagesLoop] at h; cases h; exact ⟨rfl, rfl⟩
  | n + 1, i, [], names, es, h => by rw [pagesLoop] at h; cases h
  | n + 1, i, p :: r, names, es, h => by
    rw [pagesLoop] at h
    cases h1 : idx p 0 with
    | none => rw [h1] at h; cases h
    | some v =>
      cases h2 : nameAt p 6 with
      | none => rw [h1, h2] at h; cases h
      | some name =>
        cases h3 : pagesLoop path info (i + 1) n r with
        | none => rw [h1, h2, h3] at h; cases h
        | some q =>
          obtain ⟨ns, es'⟩ := q
          rw [h1, h2, h3] at h
          cases h
          obtain ⟨k1, k2⟩ := pagesLoop_keys path info n (i + 1) r ns es' h3
          exact ⟨by rw [List.map_cons, List.map_cons, k1], by rw [List.length_cons, k2]⟩

theorem pagesOut_facts (path : Text) (pr pr1 : List Val) (names : List Text) (es : List (Text × Entry))
    (h : pagesOut path pr = some (pr1, names, es)) :
    pageCount pr = some names.length ∧ es.map (·.1) = names.map (fun t => calcId path t []) ++ [calcId path pagesWord []] ∧
      (calcId path pagesWord [], Entry.pages names) ∈ es ∧ ∃ R, skipLists 4 (pr.drop 2) = some R := by
  rw [pagesOut_at] at h
  cases ho : calcOffset pr pagesTable 0 with
  | none => rw [ho] at h; cases h
  | some off =>
    rw [ho, Option.bind_some, pagesAt] at h
    cases hr : pr[off]? with
    | none => rw [hr] at h; cases h
    | some v =>
      cases v with
      | none => rw [hr] at h; cases h
      | str _ => rw [hr] at h; cases h
      | list l =>
        rw [hr] at h
        simp only at h
        cases hn : countAt l 1 with
        | none => rw [hn] at h; cases h
        | some n =>
          cases hm : countAt pr (off + 4) with
          | none => rw [hn, hm] at h; cases h
          | some m =>
            rw [hn, hm] at h
            simp only at h
            cases hl : pagesLoop path (infoAt pr (off + 4) m n) 0 n (l.drop 2) with
            | none => rw [hl] at h; cases h
            | some q =>
              obtain ⟨names', es'⟩ := q
              rw [hl] at h
              simp only at h
              by_cases hw : pagesWord ∈ names'
              · rw [if_pos hw] at h; cases h
              · rw [if_neg hw] at h
                have h := Option.some.inj h
                obtain ⟨h1, h2⟩ := Prod.mk.inj h
                obtain ⟨h2, h3⟩ := Prod.mk.inj h2
                subst h2
                subst h3
                obtain ⟨k1, k2⟩ := pagesLoop_keys path _ n 0 _ _ _ hl
                refine ⟨?_, ?_, List.mem_append_right _ List.mem_cons_self, skip_of_offset pr off ho⟩
                · rw [pageCount, ho, Option.bind_some, hr]
                  show countAt l 1 = _
                  rw [hn, k2]
                · rw [List.map_append, k1]
                  rfl

theorem pagesIn_with (D : List (Text × Entry)) (path : Text) (names : List Text) (raw : List Val)
    (h : dictGet D (calcId path pagesWord []) = some (.pages names)) (out : List Val) (ho : pagesIn D path raw = some out) :
    pagesWith D path names raw = some out := by
  rw [pagesIn] at ho
  rw [pagesWith]
  cases hc : calcOffset raw pagesTable 0 with
  | none => rw [hc] at ho; cases ho
  | some off =>
    rw [hc] at ho
    simp only at ho ⊢
    match hr : raw[off]?, ho with
    | some (.list (p0 :: pr)), ho =>
      simp only at ho ⊢
      rw [h] at ho
      exact ho

/-- the pages of a panel come back, with any four lists before them -/
theorem panel_pages (D : List (Text × Entry)) (path : Text) (pr pr1 pr' : List Val) (names : List Text) (es : List (Text × Entry))
    (h : pagesOut path pr = some (pr1, names, es)) (hd : delAnchored pr1 = some pr') (ht : TidyPages pr)
    (hD : ∀ e ∈ es, dictGet D e.1 = some e.2) :
    ∃ R q, skipLists 4 (pr.drop 2) = some R ∧ pagesWith D path names pr' = some q ∧ q.take 2 = pr.take 2 ∧ q.drop 6 = R := by
  obtain ⟨_, _, hm, R, hR⟩ := pagesOut_facts path pr pr1 names es h
  obtain ⟨R1, e1, e2, e3, e4⟩ := pages_behind path pr pr1 names es h ht R hR
  rw [hd] at e1
  cases e1
  have hrt := pages_rt D path _ _ names es e2 e3 hD
  refine ⟨R, zeros pr ++ R, hR, pagesIn_with D path names _ (hD _ hm) _ hrt, ?_, ?_⟩
  · rw [zeros, List.append_assoc, List.take_left' (by rw [List.length_take]; omega)]
  · exact List.drop_left' (by rw [zeros, List.length_append, List.length_take]; simp only [List.length_cons, List.length_nil]; omega)

end V8.OAuto
