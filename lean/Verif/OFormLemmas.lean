import Verif.OForm
import Verif.FormArea
/-
Lemmas about the model of ordinary forms.
-/
namespace V8.OForm
open V8.Brace V8.Dec V8.Form
open V8.Module (strEncode strDecode)

/-- no other kind is called like a panel -/
theorem labelOf_ne (raw : List Val) : labelOf raw ≠ panelLabel := by
  have hl : ∀ u s, (otherKinds.zip otherLabels).lookup u = some s → s ≠ panelLabel := by
    have : ∀ p ∈ otherKinds.zip otherLabels, p.2 ≠ panelLabel := by decide +kernel
    intro u s h
    have hm : ∀ (l : List (Text × Text)), l.lookup u = some s → ∃ p ∈ l, p.2 = s := by
      intro l
      induction l with
      | nil => intro h; cases h
      | cons p r ih =>
        intro h
        rw [List.lookup_cons] at h
        cases hb : u == p.1 with
        | true => rw [hb] at h; exact ⟨p, List.mem_cons_self, Option.some.inj h⟩
        | false =>
          rw [hb] at h
          obtain ⟨q, hq, he⟩ := ih h
          exact ⟨q, List.mem_cons_of_mem _ hq, he⟩
    obtain ⟨p, hp, rfl⟩ := hm _ h
    exact this p hp
  rw [labelOf]
  cases raw[0]? with
  | none => decide
  | some v =>
    cases v with
    | none => decide
    | list _ => exact (by decide : "Field".toList ≠ panelLabel)
    | str u =>
      simp only
      cases h : (otherKinds.zip otherLabels).lookup u with
      | none => decide
      | some s => exact hl u s h

/-! ### slices and the descriptions of pages -/

theorem slice_nat (l : List Val) (a b : Nat) : slice l (a : Int) (b : Int) = (l.take b).drop a := by
  rw [slice]
  simp only
  rw [if_neg (by omega), if_neg (by omega), Int.toNat_natCast, Int.toNat_natCast]
  have e1 : l.take (min b l.length) = l.take b := by
    rw [List.take_eq_take_iff]; omega
  rw [e1]
  by_cases h : a ≤ l.length
  · rw [Nat.min_eq_left h]
  · rw [List.drop_of_length_le (by rw [List.length_take]; omega), List.drop_of_length_le (by rw [List.length_take]; omega)]

/-- where the description of page `i` of `n` begins among `m` entries: the first page has all entries the others do not need -/
def startOf (m n i : Nat) : Nat := if i = 0 then 0 else m - 4 * (n - i)

theorem infoAt_eq (raw : List Val) (io m n i : Nat) (hi : i < n) (hm : 4 * (n - 1) ≤ m) :
    infoAt raw io m n i = ((raw.drop (io + 1)).drop (startOf m n i)).take (startOf m n (i + 1) - startOf m n i) := by
  rw [infoAt]
  rw [List.drop_drop, startOf, startOf, if_neg (by omega : ¬ i + 1 = 0)]
  by_cases h : i = 0
  · rw [if_pos h, if_pos h, Nat.add_zero]
    have e1 : ((io : Int) + 1) = ((io + 1 : Nat) : Int) := by omega
    have e2 : ((io : Int) + 1 + 4 + ((m : Int) - (n : Int) * 4)) = ((io + 1 + (m - 4 * (n - 1)) : Nat) : Int) := by omega
    rw [e2, e1, slice_nat, List.drop_take]
    congr 1
    omega
  · rw [if_neg h, if_neg h]
    have e1 : ((i : Int) * 4 + 1 + io + ((m : Int) - (n : Int) * 4)) = ((io + 1 + (m - 4 * (n - i)) : Nat) : Int) := by omega
    have e2 : (((io + 1 + (m - 4 * (n - i)) : Nat) : Int) + 4) = ((io + 1 + (m - 4 * (n - i)) + 4 : Nat) : Int) := by omega
    rw [e1, e2, slice_nat, List.drop_take]
    congr 1
    omega

theorem infos_flat (raw : List Val) (io m n : Nat) (hn : n = 0 → m = 0) (hm : 4 * (n - 1) ≤ m) : ∀ (c i : Nat), i + c = n →
    (List.range' i c).flatMap (infoAt raw io m n) = ((raw.drop (io + 1)).drop (startOf m n i)).take (m - startOf m n i) := by
  intro c
  induction c with
  | zero =>
    intro i hi
    have : m - startOf m n i = 0 := by
      rw [startOf]
      by_cases h0 : i = 0
      · rw [if_pos h0]; have := hn (by omega); omega
      · rw [if_neg h0]; omega
    rw [this, List.take_zero]
    rfl
  | succ c ih =>
    intro i hi
    rw [List.range'_succ, List.flatMap_cons, ih (i + 1) (by omega), infoAt_eq raw io m n i (by omega) hm]
    have h1 : startOf m n i ≤ startOf m n (i + 1) := by
      rw [startOf, startOf, if_neg (by omega : ¬ i + 1 = 0)]
      by_cases h : i = 0
      · rw [if_pos h]; omega
      · rw [if_neg h]; omega
    have h2 : startOf m n (i + 1) ≤ m := by
      rw [startOf, if_neg (by omega : ¬ i + 1 = 0)]; omega
    have e : (raw.drop (io + 1)).drop (startOf m n (i + 1)) = ((raw.drop (io + 1)).drop (startOf m n i)).drop (startOf m n (i + 1) - startOf m n i) := by
      rw [List.drop_drop (l := raw.drop (io + 1))]
      congr 1
      omega
    rw [e, ← List.take_add]
    congr 1
    omega

/-! ### pages -/

theorem pagesLoop_rt (D : List (Text × Entry)) (path : Text) (info : Nat → List Val) : ∀ (n i : Nat) (l : List Val) (names : List Text)
    (es : List (Text × Entry)), pagesLoop path info i n l = some (names, es) → (∀ e ∈ es, dictGet D e.1 = some e.2) →
    pagesIn1 D path names = some (l.take n, (List.range' i n).flatMap info) ∧ names.length = n
  | 0, i, l, names, es, h, _ => by
    rw [pagesLoop] at h
    cases h
    exact ⟨rfl, rfl⟩
  | n + 1, i, [], names, es, h, _ => by cases h
  | n + 1, i, p :: r, names, es, h, hd => by
    rw [pagesLoop] at h
    cases h1 : idx p 0 with
    | none => rw [h1] at h; cases h
    | some v =>
      cases h2 : nameAt p 6 with
      | none => rw [h1, h2] at h; cases h
      | some name =>
        cases h3 : pagesLoop path info (i + 1) n r with
        | none => rw [h1, h2, h3] at h; cases h
        | some q =>
          obtain ⟨names', es'⟩ := q
          rw [h1, h2, h3] at h
          cases h
          obtain ⟨r1, r2⟩ := pagesLoop_rt D path info n (i + 1) r names' es' h3 (fun e he => hd e (List.mem_cons_of_mem _ he))
          have hp := hd _ List.mem_cons_self
          refine ⟨?_, by rw [List.length_cons, r2]⟩
          rw [pagesIn1, hp, r1]
          rfl

/-- the pages of a panel are in the usual form: nothing follows the pages in their list; the descriptions are there; there are none without
pages, and four for every page but the first -/
def TidyPages (raw : List Val) : Prop := ∀ off pr n m, calcOffset raw pagesTable 0 = some off → raw[off]? = some (.list pr) →
  countAt pr 1 = some n → countAt raw (off + 4) = some m →
  pr.length ≤ n + 2 ∧ off + 4 + m < raw.length ∧ (n = 0 → m = 0) ∧ 4 * (n - 1) ≤ m

theorem pages_rt (D : List (Text × Entry)) (path : Text) (raw raw' : List Val) (names : List Text) (es : List (Text × Entry))
    (h : pagesOut path raw = some (raw', names, es)) (ht : TidyPages raw) (hd : ∀ e ∈ es, dictGet D e.1 = some e.2) :
    pagesIn D path raw' = some raw := by
  rw [pagesOut] at h
  cases ho : calcOffset raw pagesTable 0 with
  | none => rw [ho] at h; cases h
  | some off =>
    rw [ho] at h
    simp only at h
    cases hr : raw[off]? with
    | none => rw [hr] at h; cases h
    | some v =>
      cases v with
      | none => rw [hr] at h; cases h
      | str _ => rw [hr] at h; cases h
      | list pr =>
        rw [hr] at h
        simp only at h
        cases hn : countAt pr 1 with
        | none => rw [hn] at h; cases h
        | some n =>
          cases hm : countAt raw (off + 4) with
          | none => rw [hn, hm] at h; cases h
          | some m =>
            rw [hn, hm] at h
            simp only at h
            cases hl : pagesLoop path (infoAt raw (off + 4) m n) 0 n (pr.drop 2) with
            | none => rw [hl] at h; cases h
            | some q =>
              obtain ⟨names', es'⟩ := q
              rw [hl] at h
              simp only at h
              by_cases hw : pagesWord ∈ names'
              · rw [if_pos hw] at h; cases h
              · rw [if_neg hw] at h
                cases h
                obtain ⟨t1, t2, t3, t4⟩ := ht off pr n m ho hr hn hm
                obtain ⟨r1, r2⟩ := pagesLoop_rt D path _ n 0 _ _ _ hl (fun e he => hd e (List.mem_append_left _ he))
                have hpw := hd (calcId path pagesWord [], .pages names) (List.mem_append_right _ (List.mem_singleton.mpr rfl))
                simp only at hpw
                rw [infos_flat raw (off + 4) m n t3 t4 n 0 (by omega), startOf, if_pos rfl, List.drop_zero, Nat.sub_zero] at r1
                have hpr1 := countAt_some pr 1 n hn
                have hio := countAt_some raw (off + 4) m hm
                -- the list of the pages
                have hpr : ∃ p0, pr = p0 :: .str (showNat n) :: pr.drop 2 := by
                  match pr, hpr1 with
                  | [], h => cases h
                  | [_], h => cases h
                  | a :: b :: r, h =>
                    simp only [List.getElem?_cons_succ, List.getElem?_cons_zero, Option.some.injEq] at h
                    exact ⟨a, by rw [h]; rfl⟩
                obtain ⟨p0, hpr⟩ := hpr
                have hd3 : pr.drop (3 + n) = [] := List.drop_of_length_le (by omega)
                have htk : (pr.drop 2).take n = pr.drop 2 := List.take_of_length_le (by rw [List.length_drop]; omega)
                have hq : pr.take 1 ++ pr.drop (3 + n) = [p0] := by
                  rw [hd3, List.append_nil, hpr]; rfl
                rw [hq]
                generalize hraw' : (raw.set off (.list [p0])).take (off + 4) ++ Val.str infoWord :: raw.drop (off + 4 + 1 + m) = raw'
                have hlt : ((raw.set off (.list [p0])).take (off + 4)).length = off + 4 := by
                  rw [List.length_take, List.length_set]; omega
                have hlow : ∀ k, k < off → raw'[k]? = raw[k]? := by
                  intro k hk
                  rw [← hraw', List.getElem?_append_left (by omega), List.getElem?_take_of_lt (by omega), List.getElem?_set_ne (by omega)]
                have hoff : raw'[off]? = some (.list [p0]) := by
                  rw [← hraw', List.getElem?_append_left (by omega), List.getElem?_take_of_lt (by omega), List.getElem?_set_self (by omega)]
                have hc := calcOffset_congr raw raw' pagesTable 0 off rfl ho hlow
                rw [pagesIn, hc]
                simp only
                rw [hoff]
                simp only
                rw [hpw]
                simp only
                rw [r1]
                simp only
                rw [List.append_nil, htk, r2, ← hpr]
                have h1 : raw'.set off (.list pr) = raw.take (off + 4) ++ Val.str infoWord :: raw.drop (off + 4 + 1 + m) := by
                  rw [← hraw', List.set_append_left _ _ (by omega), ← List.take_set, List.set_set, set_same raw off _ hr]
                rw [h1]
                have hl4 : (raw.take (off + 4)).length = off + 4 := by rw [List.length_take]; omega
                have a1 : (raw.take (off + 4) ++ Val.str infoWord :: raw.drop (off + 4 + 1 + m)).take (off + 4 + 1) = raw.take (off + 4) ++ [Val.str infoWord] := by
                  rw [List.take_append, hl4, List.take_of_length_le (by omega), Nat.add_sub_cancel_left]
                  rfl
                have a2 : (raw.take (off + 4) ++ Val.str infoWord :: raw.drop (off + 4 + 1 + m)).drop (off + 4 + 1) = raw.drop (off + 4 + 1 + m) := by
                  rw [List.drop_append, hl4, List.drop_of_length_le (by omega), Nat.add_sub_cancel_left]
                  rfl
                rw [a1, a2]
                have hlm : ((raw.drop (off + 4 + 1)).take m).length = m := by rw [List.length_take, List.length_drop]; omega
                rw [if_pos (by simp only [List.length_append, hl4, List.length_singleton]; omega)]
                congr 1
                rw [List.append_assoc, List.append_assoc, List.set_append_right _ _ (by omega), hl4, Nat.sub_self]
                rw [hlm]
                show raw.take (off + 4) ++ (.str (showNat m) :: ((raw.drop (off + 4 + 1)).take m ++ raw.drop (off + 4 + 1 + m))) = raw
                rw [← List.drop_drop (i := m) (j := off + 4 + 1), List.take_append_drop]
                have hil : off + 4 < raw.length := by omega
                have e4 : raw.drop (off + 4) = raw[off + 4] :: raw.drop (off + 4 + 1) := List.drop_eq_getElem_cons hil
                have e5 : raw[off + 4] = .str (showNat m) := by
                  rw [List.getElem?_eq_getElem hil] at hio
                  exact Option.some.inj hio
                rw [← e5, ← e4, List.take_append_drop]

/-! ### elements -/

/-- names of all elements of a tree -/
def allNames : List Node → List Text
  | [] => []
  | .mk name _ _ child :: r => name :: (allNames child ++ allNames r)
termination_by l => sizeOf l

/-- the panels nested in a list of elements, at any depth -/
def panels : Nat → List Val → List (List Val)
  | 0, _ => []
  | d + 1, er => er.flatMap (fun v => match v with
    | .list raw => if raw[0]? = some (.str panelKind) then raw :: (match fromEnd raw 1 with
        | some (.list er2) => panels d er2
        | _ => []) else []
    | _ => [])

/-- nothing follows the elements in their list -/
def TidyElems (er : List Val) : Prop := ∀ n, countAt er 0 = some (n + 1) → er.length ≤ n + 2

/-- a nested panel is in the usual form -/
structure TidyPanel (p : List Val) : Prop where
  size : 3 < p.length
  pages : ∀ pr, get2 p 2 1 = some (.list pr) → TidyPages pr
  elems : ∀ er, fromEnd p 1 = some (.list er) → TidyElems er

theorem key_eq (path page name : Text) (h : name ≠ []) : elemKey path page name = calcId path page name := by
  rw [elemKey, calcId]
  congr 1
  show _ = ([path, page] ++ [name]).filter _
  rw [List.filter_append]
  congr 1
  rw [List.filter_cons_of_pos (by simpa using h)]
  rfl

theorem isPanel_true (u : Text) (h : isPanel u = some true) : u = panelKind := by
  rw [isPanel] at h
  by_cases hu : u = panelKind
  · exact hu
  · rw [if_neg hu] at h
    by_cases h2 : u ∈ otherKinds
    · rw [if_pos h2] at h; cases h
    · rw [if_neg h2] at h; cases h

/-- what the round trip of one element needs -/
structure Ready (N : List (Text × Val)) (D : List (Text × Entry)) (nodes : List Node) (es : List (Text × Entry)) : Prop where
  names : ∀ t ∈ allNames nodes, t ≠ []
  look : ∀ e ∈ es, dictGet D e.1 = some e.2

theorem loop_rt (N : List (Text × Val)) (D : List (Text × Entry)) (f : Bool → List Val → Option (Node × List (Text × Entry)))
    (g : Node → Option (List Val)) (T : List Val → Prop)
    (hfg : ∀ k raw node es, f k raw = some (node, es) → (k = true → raw[0]? = some (.str panelKind)) → T raw → Ready N D [node] es →
      g node = some raw) :
    ∀ (n : Nat) (l : List Val) (nodes : List Node) (es : List (Text × Entry)), elemsLoop f n l = some (nodes, es) →
      (∀ raw, Val.list raw ∈ l → T raw) → Ready N D nodes es → elemsIn1 g nodes = some (l.take n) := by
  intro n
  induction n with
  | zero =>
    intro l nodes es h _ _
    rw [elemsLoop] at h
    cases h
    rfl
  | succ n ih =>
    intro l nodes es h hT hR
    match l, h with
    | .list (.str u :: raw) :: rest, h =>
      rw [elemsLoop] at h
      cases hu : isPanel u with
      | none => rw [hu] at h; cases h
      | some k =>
        rw [hu] at h
        simp only at h
        cases h1 : f k (.str u :: raw) with
        | none => rw [h1] at h; cases h
        | some q =>
          obtain ⟨node, es1⟩ := q
          cases h2 : elemsLoop f n rest with
          | none => rw [h1, h2] at h; cases h
          | some q2 =>
            obtain ⟨nodes2, es2⟩ := q2
            rw [h1, h2] at h
            cases h
            have hn1 : ∀ t ∈ allNames [node], t ∈ allNames (node :: nodes2) := by
              intro t ht
              obtain ⟨a, b, c, d⟩ := node
              rw [allNames, allNames, List.append_nil] at ht
              rw [allNames]
              rcases List.mem_cons.mp ht with ht | ht
              · exact List.mem_cons.mpr (Or.inl ht)
              · exact List.mem_cons_of_mem _ (List.mem_append_left _ ht)
            have hn2 : ∀ t ∈ allNames nodes2, t ∈ allNames (node :: nodes2) := by
              intro t ht
              obtain ⟨a, b, c, d⟩ := node
              rw [allNames]
              exact List.mem_cons_of_mem _ (List.mem_append_right _ ht)
            have r1 := hfg k (.str u :: raw) node es1 h1
              (fun hk => by rw [hk] at hu; rw [isPanel_true u hu]; rfl)
              (hT _ List.mem_cons_self)
              ⟨fun t ht => hR.names t (hn1 t ht), fun e he => hR.look e (List.mem_append_left _ he)⟩
            have r2 := ih rest nodes2 es2 h2 (fun raw hr => hT raw (List.mem_cons_of_mem _ hr))
              ⟨fun t ht => hR.names t (hn2 t ht), fun e he => hR.look e (List.mem_append_right _ he)⟩
            rw [elemsIn1, r1, r2]
            rfl
    | [], h => cases h
    | .none :: _, h => cases h
    | .str _ :: _, h => cases h
    | .list [] :: _, h => cases h
    | .list (.none :: _) :: _, h => cases h
    | .list (.list _ :: _) :: _, h => cases h

theorem elems_rt (N : List (Text × Val)) (D : List (Text × Entry)) (f : Bool → List Val → Option (Node × List (Text × Entry)))
    (g : Node → Option (List Val)) (T : List Val → Prop)
    (hfg : ∀ k raw node es, f k raw = some (node, es) → (k = true → raw[0]? = some (.str panelKind)) → T raw → Ready N D [node] es →
      g node = some raw)
    (er er' : List Val) (nodes : List Node) (es : List (Text × Entry)) (h : elemsOut f er = some (er', nodes, es))
    (hT : ∀ raw, Val.list raw ∈ er → T raw) (ht : TidyElems er) (hR : Ready N D nodes es) : elemsIn g nodes er' = some er := by
  rw [elemsOut] at h
  cases hc : countAt er 0 with
  | none => rw [hc] at h; cases h
  | some n =>
    rw [hc] at h
    have h0 := countAt_some er 0 n hc
    cases n with
    | zero =>
      cases h
      cases er with
      | nil => cases h0
      | cons v r =>
        simp only [List.getElem?_cons_zero, Option.some.injEq] at h0
        rw [h0, elemsIn.eq_def]
        simp only [elemsIn1, List.append_nil, List.length_nil]
    | succ n =>
      simp only at h
      cases hl : elemsLoop f (n + 1) (er.drop 1) with
      | none => rw [hl] at h; cases h
      | some q =>
        obtain ⟨nodes2, es2⟩ := q
        rw [hl] at h
        cases h
        have r := loop_rt N D f g T hfg (n + 1) (er.drop 1) nodes es hl (fun raw hr => hT raw (List.mem_of_mem_drop hr)) hR
        have hlen := ht n hc
        have e1 : er.drop (n + 2) = [] := List.drop_of_length_le hlen
        have e2 : (er.drop 1).take (n + 1) = er.drop 1 := List.take_of_length_le (by rw [List.length_drop]; omega)
        have hlen2 : ∀ (k : Nat) (l : List Val) (nodes : List Node) (es : List (Text × Entry)), elemsLoop f k l = some (nodes, es) → k ≤ l.length := by
          intro k
          induction k with
          | zero => intro l _ _ _; omega
          | succ k ih =>
            intro l nodes es h
            match l, h with
            | .list (.str u :: raw) :: rest, h =>
              rw [elemsLoop] at h
              cases hu : isPanel u with
              | none => rw [hu] at h; cases h
              | some b =>
                rw [hu] at h
                simp only at h
                cases h1 : f b (.str u :: raw) with
                | none => rw [h1] at h; cases h
                | some q =>
                  cases h2 : elemsLoop f k rest with
                  | none => rw [h1, h2] at h; cases h
                  | some q2 =>
                    have := ih rest q2.1 q2.2 h2
                    rw [List.length_cons]; omega
            | [], h => cases h
            | .none :: _, h => cases h
            | .str _ :: _, h => cases h
            | .list [] :: _, h => cases h
            | .list (.none :: _) :: _, h => cases h
            | .list (.list _ :: _) :: _, h => cases h
        have hge := hlen2 (n + 1) (er.drop 1) nodes es hl
        rw [List.length_drop] at hge
        rw [e1, elemsIn.eq_def, r, e2]
        simp only
        cases er with
        | nil => cases h0
        | cons v t =>
          simp only [List.getElem?_cons_zero, Option.some.injEq] at h0
          simp only [List.drop_succ_cons, List.drop_zero, List.length_cons] at hge hlen ⊢
          have : t.length = n + 1 := by omega
          rw [this, h0]
          rfl

theorem get2_set2 (raw : List Val) (i j : Nat) (v w : Val) (h : get2 raw i j = some v) : get2 (set2 raw i j w) i j = some w := by
  rw [get2] at h
  cases hr : raw[i]? with
  | none => rw [hr] at h; cases h
  | some x =>
    cases x with
    | none => rw [hr] at h; cases h
    | str _ => rw [hr] at h; cases h
    | list l =>
      rw [hr] at h
      simp only at h
      rw [set2, hr]
      simp only
      rw [List.getElem?_eq_some_iff] at hr h
      rw [get2, List.getElem?_set_self hr.1]
      simp only
      exact List.getElem?_set_self h.1

theorem set2_set2 (raw : List Val) (i j : Nat) (v w : Val) (h : get2 raw i j = some v) : set2 (set2 raw i j w) i j v = raw := by
  rw [get2] at h
  cases hr : raw[i]? with
  | none => rw [hr] at h; cases h
  | some x =>
    cases x with
    | none => rw [hr] at h; cases h
    | str _ => rw [hr] at h; cases h
    | list l =>
      rw [hr] at h
      simp only at h
      have hr' := hr
      rw [List.getElem?_eq_some_iff] at hr'
      have e : set2 raw i j w = raw.set i (.list (l.set j w)) := by rw [set2, hr]
      rw [e, set2, List.getElem?_set_self hr'.1]
      simp only
      rw [List.set_set, List.set_set, set_same l j v h, set_same raw i _ hr]

theorem set2_length (raw : List Val) (i j : Nat) (v : Val) : (set2 raw i j v).length = raw.length := by
  rw [set2]
  cases raw[i]? with
  | none => rfl
  | some x =>
    cases x with
    | none => rfl
    | str _ => rfl
    | list l => exact List.length_set

theorem set2_ne (raw : List Val) (i j k : Nat) (v : Val) (h : k ≠ i) : (set2 raw i j v)[k]? = raw[k]? := by
  rw [set2]
  cases raw[i]? with
  | none => rfl
  | some x =>
    cases x with
    | none => rfl
    | str _ => rfl
    | list l => exact List.getElem?_set_ne (Ne.symm h)

theorem set2_set (raw : List Val) (i j k : Nat) (v w : Val) (h : k ≠ i) : set2 (raw.set k w) i j v = (set2 raw i j v).set k w := by
  rw [set2, set2, List.getElem?_set_ne h]
  cases raw[i]? with
  | none => rfl
  | some x =>
    cases x with
    | none => rfl
    | str _ => rfl
    | list l => exact List.set_comm _ _ h

theorem get2_set (raw : List Val) (i j k : Nat) (w : Val) (h : k ≠ i) : get2 (raw.set k w) i j = get2 raw i j := by
  rw [get2, get2, List.getElem?_set_ne h]

/-- an element that was taken out with its nested elements is put back as it was -/
theorem elem_rt (P : List (Val × Text)) (N : List (Text × Val)) (D : List (Text × Entry))
    (hP : ∀ e ∈ P, propFound N (nonEmpty (some e.2)) = true) :
    ∀ (depth : Nat) (path : Text) (pages : List Text) (k : Bool) (raw : List Val) (node : Node) (es : List (Text × Entry)),
      elemOut P depth path pages k raw = some (node, es) → (k = true → raw[0]? = some (.str panelKind)) →
      (∀ p ∈ panels depth [.list raw], TidyPanel p) → Ready N D [node] es → elemIn N D depth path node = some raw := by
  intro depth
  induction depth with
  | zero => intro path pages k raw node es h; cases h
  | succ depth ih =>
    intro path pages k raw node es h hk hT hR
    rw [elemOut] at h
    cases hh : headOf pages raw with
    | none => rw [hh] at h; cases h
    | some q =>
      obtain ⟨name, page, id⟩ := q
      rw [hh] at h
      simp only at h
      have hprop : propFound N (nonEmpty (dictGet P id)) = true := by
        cases hd : dictGet P id with
        | none => rfl
        | some p => exact hP _ (dictGet_some P id p hd)
      have hid : raw[1]? = some id ∧ hashable id = true := by
        rw [headOf] at hh
        cases h1 : (fromEnd raw 2).bind (nameAt · 1) with
        | none => rw [h1] at hh; cases hh
        | some a =>
          cases h2 : ((fromEnd raw 3).bind seq).bind (fromEnd · 5) with
          | none => rw [h1, h2] at hh; cases hh
          | some b =>
            cases h3 : raw[1]? with
            | none => rw [h1, h2, h3] at hh; cases hh
            | some c =>
              rw [h1, h2, h3] at hh
              simp only at hh
              by_cases hc : hashable c = false
              · rw [if_pos hc] at hh; cases hh
              · rw [if_neg hc] at hh
                cases hp : pageName pages b with
                | none => rw [hp] at hh; cases hh
                | some d =>
                  rw [hp] at hh
                  cases hh
                  exact ⟨rfl, by simpa using hc⟩
      by_cases hkf : k = false
      · rw [if_pos hkf] at h
        cases h
        have hlook := hR.look _ (List.mem_singleton.mpr rfl)
        simp only at hlook
        have hname : name ≠ [] := hR.names name (by rw [allNames]; exact List.mem_cons_self)
        rw [elemIn, key_eq _ _ _ hname, hlook]
        simp only [Option.bind_some, Entry.asElem]
        rw [if_neg (by rw [hid.1, hprop]; simp)]
        exact if_pos (labelOf_ne raw)
      · rw [if_neg hkf] at h
        have hkt : k = true := by simpa using hkf
        have hpan : raw ∈ panels (depth + 1) [.list raw] := by
          rw [panels, List.mem_flatMap]
          refine ⟨_, List.mem_singleton.mpr rfl, ?_⟩
          simp only
          rw [if_pos (hk hkt)]
          exact List.mem_cons_self
        have htidy := hT raw hpan
        have hsub : ∀ er, fromEnd raw 1 = some (.list er) → ∀ p ∈ panels depth er, TidyPanel p := by
          intro er her p hp
          apply hT
          rw [panels, List.mem_flatMap]
          refine ⟨_, List.mem_singleton.mpr rfl, ?_⟩
          simp only
          rw [if_pos (hk hkt), her]
          exact List.mem_cons_of_mem _ hp
        cases hg : get2 raw 2 1 with
        | none => rw [hg] at h; cases h
        | some w =>
          cases w with
          | none => rw [hg] at h; cases h
          | str _ => rw [hg] at h; cases h
          | list pr =>
            rw [hg] at h
            simp only at h
            cases hp : pagesOut (inside (calcId path page name)) pr with
            | none => rw [hp] at h; cases h
            | some q =>
              obtain ⟨pr', names, es1⟩ := q
              rw [hp] at h
              simp only at h
              have hfe : fromEnd (set2 raw 2 1 (.list pr')) 1 = fromEnd raw 1 := by
                have := htidy.size
                rw [fromEnd, fromEnd, set2_length, if_pos (by omega), if_pos (by omega), set2_ne _ _ _ _ _ (by omega)]
              rw [hfe] at h
              cases he : fromEnd raw 1 with
              | none => rw [he] at h; cases h
              | some x =>
                cases x with
                | none => rw [he] at h; cases h
                | str _ => rw [he] at h; cases h
                | list er =>
                  rw [he] at h
                  simp only at h
                  cases hel : elemsOut (elemOut P depth (inside (calcId path page name)) names) er with
                  | none => rw [hel] at h; cases h
                  | some q2 =>
                    obtain ⟨er', nodes, es2⟩ := q2
                    rw [hel] at h
                    cases h
                    have hsz := htidy.size
                    have hlook := hR.look _ List.mem_cons_self
                    simp only at hlook
                    have hname : name ≠ [] := hR.names name (by rw [allNames]; exact List.mem_cons_self)
                    have hpages := pages_rt D _ pr pr' names es1 hp (htidy.pages pr hg)
                      (fun e hm => hR.look e (List.mem_cons_of_mem _ (List.mem_append_left _ hm)))
                    have helems := elems_rt N D (elemOut P depth (inside (calcId path page name)) names)
                      (elemIn N D depth (inside (calcId path page name))) (fun raw => ∀ p ∈ panels depth [.list raw], TidyPanel p)
                      (fun k raw node es h hk hT hR => ih _ names k raw node es h hk hT hR) er er' nodes es2 hel
                      (by
                        intro raw2 hm p hp2
                        apply hsub er he
                        cases depth with
                        | zero => cases hp2
                        | succ d =>
                          rw [panels, List.mem_flatMap] at hp2 ⊢
                          obtain ⟨v, hv, hp3⟩ := hp2
                          rw [List.mem_singleton] at hv
                          exact ⟨v, by rw [hv]; exact hm, hp3⟩)
                      (htidy.elems er he)
                      ⟨fun t htm => hR.names t (by rw [allNames]; exact List.mem_cons_of_mem _ (List.mem_append_left _ htm)),
                        fun e hm => hR.look e (List.mem_cons_of_mem _ (List.mem_append_right _ hm))⟩
                    have hl : raw.length - 1 ≠ 2 := by omega
                    generalize hR2 : (set2 raw 2 1 (.list pr')).set (raw.length - 1) (.list er') = R at hlook ⊢
                    have g1 : R[1]? = some id := by
                      rw [← hR2, List.getElem?_set_ne (by omega), set2_ne _ _ _ _ _ (by omega)]
                      exact hid.1
                    have g2 : get2 R 2 1 = some (.list pr') := by
                      rw [← hR2, get2_set _ _ _ _ _ hl]
                      exact get2_set2 raw 2 1 _ _ hg
                    have g3 : set2 R 2 1 (.list pr) = raw.set (raw.length - 1) (.list er') := by
                      rw [← hR2, set2_set _ _ _ _ _ _ hl, set2_set2 raw 2 1 _ _ hg]
                    have g4 : R.length = raw.length := by rw [← hR2, List.length_set, set2_length]
                    have g5 : fromEnd (raw.set (raw.length - 1) (.list er')) 1 = some (.list er') := by
                      rw [fromEnd, List.length_set, if_pos (by omega), List.getElem?_set_self (by omega)]
                    have g6 : (raw.set (raw.length - 1) (.list er')).set (raw.length - 1) (.list er) = raw := by
                      rw [List.set_set]
                      apply set_same
                      rw [fromEnd, if_pos (by omega)] at he
                      exact he
                    have g7 : listId R = false := by
                      rw [listId, g1]
                      cases id with
                      | none => rfl
                      | str _ => rfl
                      | list _ => cases hid.2
                    rw [elemIn, key_eq _ _ _ hname, hlook]
                    simp only [Option.bind_some, Entry.asElem]
                    rw [if_neg (by rw [g1, hprop]; simp), if_neg (by simp), if_neg (by rw [g7]; simp), g2]
                    simp only
                    rw [hpages]
                    simp only
                    rw [g3, g5]
                    simp only
                    rw [helems, g4]
                    simp only
                    rw [g6]

end V8.OForm
