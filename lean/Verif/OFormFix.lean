import Verif.OFormAutoForm
/-
Numbering anew what has been numbered anew changes nothing: lemmas about places, references, pages and lists.
-/
namespace V8.OAuto
open V8.Brace V8.Dec
open V8.Form (count countAt dictGet calcOffset countAt_some)
open V8.OForm (fromEnd get2 set2 pagesTable panelKind get2_set2 set2_length set2_ne set2_set get2_set set2_set2)

/-! ### what stays in the place of an element -/

/-- an entry that is a text -/
def textIn : Val → Option Text
  | .str t => some t
  | _ => none

theorem mapRef_text (f : Text → Option Text) (v w : Val) (h : mapRef f v = some w) : textIn w = textIn v := by
  match v, h with
  | .list (a :: .str t :: r), h =>
    rw [mapRef, Option.map_eq_some_iff] at h
    obtain ⟨u, _, rfl⟩ := h
    rfl

theorem mapEnds_text (f : Text → Option Text) (v w : Val) (h : mapEnds f v = some w) : textIn w = textIn v := by
  match v, h with
  | .list (a :: x :: y :: r), h =>
    rw [mapEnds] at h
    simp only [Option.bind_eq_some_iff, Option.map_eq_some_iff] at h
    obtain ⟨x', _, y', _, rfl⟩ := h
    rfl

theorem mapN_text (f : Val → Option Val) (hf : ∀ v w, f v = some w → textIn w = textIn v) : ∀ (n : Nat) (l l' : List Val),
    mapN f n l = some l' → l'.map textIn = l.map textIn
  | 0, l, l', h => by cases h; rfl
  | n + 1, [], l', h => by cases h
  | n + 1, v :: r, l', h => by
    rw [mapN] at h
    simp only [Option.bind_eq_some_iff, Option.map_eq_some_iff] at h
    obtain ⟨v', hv, r', hr, rfl⟩ := h
    rw [List.map_cons, List.map_cons, mapN_text f hf n r r' hr, hf v v' hv]

theorem mapLists_text (f : Val → Option Val) (hf : ∀ v w, f v = some w → textIn w = textIn v) : ∀ (k : Nat) (l l' : List Val),
    mapLists f k l = some l' → l'.map textIn = l.map textIn
  | 0, l, l', h => by cases h; rfl
  | k + 1, [], l', h => by cases h
  | k + 1, c :: r, l', h => by
    rw [mapLists] at h
    simp only [Option.bind_eq_some_iff, Option.map_eq_some_iff] at h
    obtain ⟨n, _, r1, hr1, t1, ht1, rfl⟩ := h
    have e1 := mapN_text f hf n r r1 hr1
    have e2 := mapLists_text f hf k _ _ ht1
    rw [List.map_cons, List.map_cons, List.map_append, e2, ← List.map_append, List.take_append_drop, e1]

theorem mapRefs_text (f g : Text → Option Text) (a b : List Val) (h : mapRefs f g a = some b) : b.map textIn = a.map textIn := by
  rw [mapRefs] at h
  simp only [Option.bind_eq_some_iff, Option.map_eq_some_iff] at h
  obtain ⟨b1, hb, c, hc, rfl⟩ := h
  have e1 := mapN_text _ (mapEnds_text f) 6 _ b1 hb
  have e2 := mapLists_text _ (mapRef_text g) 4 _ c hc
  rw [List.map_append, List.map_append, e2, ← List.map_append, List.take_append_drop, e1, ← List.map_append, List.take_append_drop]

theorem fromEnd_text (a b : List Val) (k : Nat) (h : b.map textIn = a.map textIn) : (fromEnd b k).bind textIn = (fromEnd a k).bind textIn := by
  have hl : b.length = a.length := by simpa using congrArg List.length h
  have hi : ∀ i : Nat, (b[i]?).bind textIn = (a[i]?).bind textIn := by
    intro i
    have := congrArg (fun l : List (Option Text) => (l[i]?).join) h
    simp only [List.getElem?_map] at this
    cases hb : b[i]? <;> cases ha : a[i]? <;> simp [hb, ha] at this ⊢ <;> exact this
  rw [fromEnd, fromEnd, hl]
  by_cases hk : k ≤ a.length
  · rw [if_pos hk, if_pos hk, hi]
  · rw [if_neg hk, if_neg hk]

/-- the number of the page, from the text that names it -/
def pageNum (n : Nat) (t : Text) : Option Nat := match num t with
  | some i => if 0 ≤ i then some i.toNat else if (-i).toNat ≤ n then some (n - (-i).toNat) else none
  | none => none

theorem pageNo_text (n : Nat) (raw : List Val) : pageNo n raw = ((placeOf raw).bind (fun a => (fromEnd a 5).bind textIn)).bind (pageNum n) := by
  rw [pageNo]
  cases placeOf raw with
  | none => rfl
  | some a =>
    rw [Option.bind_some, Option.bind_some]
    cases hf : fromEnd a 5 with
    | none => rfl
    | some v => cases v <;> rfl

theorem pageNo_same (n : Nat) (raw raw' a b : List Val) (ha : placeOf raw = some a) (hb : placeOf raw' = some b) (h : b.map textIn = a.map textIn) :
    pageNo n raw' = pageNo n raw := by
  rw [pageNo_text, pageNo_text, ha, hb, Option.bind_some, Option.bind_some, fromEnd_text a b 5 h]

/-! ### the order of pages -/

def byKey {α : Type} (key : α → Option Nat) (n : Nat) (l : List α) : List α := (List.range n).flatMap (fun p => l.filter (fun x => decide (key x = some p)))

theorem byKey_succ {α : Type} (key : α → Option Nat) (n : Nat) (l : List α) :
    byKey key (n + 1) l = byKey key n l ++ l.filter (fun x => decide (key x = some n)) := by
  rw [byKey, List.range_succ, List.flatMap_append, byKey]
  congr 1
  rw [List.flatMap_cons, List.flatMap_nil, List.append_nil]

theorem byKey_low {α : Type} (key : α → Option Nat) (n : Nat) (l : List α) (x : α) (h : x ∈ byKey key n l) : ∃ p, p < n ∧ key x = some p := by
  rw [byKey, List.mem_flatMap] at h
  obtain ⟨p, hp, hx⟩ := h
  have := (List.mem_filter.mp hx).2
  exact ⟨p, List.mem_range.mp hp, of_decide_eq_true this⟩

theorem byKey_append {α : Type} (key : α → Option Nat) : ∀ (n : Nat) (P Q : List α), (∀ x ∈ Q, ∃ p, n ≤ p ∧ key x = some p) →
    byKey key n (P ++ Q) = byKey key n P
  | 0, P, Q, _ => rfl
  | n + 1, P, Q, h => by
    rw [byKey_succ, byKey_succ, byKey_append key n P Q (fun x hx => by obtain ⟨p, hp, hk⟩ := h x hx; exact ⟨p, by omega, hk⟩), List.filter_append]
    congr 1
    have : Q.filter (fun x => decide (key x = some n)) = [] := by
      rw [List.filter_eq_nil_iff]
      intro x hx hd
      obtain ⟨p, hp, hk⟩ := h x hx
      have := of_decide_eq_true hd
      rw [hk] at this
      cases this
      omega
    rw [this, List.append_nil]

/-- what is in the order of pages stays as it is -/
theorem byKey_fix {α : Type} (key : α → Option Nat) : ∀ (n : Nat) (l l' : List α), l'.map key = (byKey key n l).map key → byKey key n l' = l'
  | 0, l, l', h => by
    have : l' = [] := by
      cases l' with
      | nil => rfl
      | cons a r => cases h
    rw [this]
    rfl
  | n + 1, l, l', h => by
    rw [byKey_succ, List.map_append] at h
    obtain ⟨P, Q, rfl, hP, hQ⟩ := List.map_eq_append_iff.mp h
    have hQn : ∀ x ∈ Q, key x = some n := by
      intro x hx
      have : key x ∈ Q.map key := List.mem_map.mpr ⟨x, hx, rfl⟩
      rw [hQ] at this
      obtain ⟨y, hy, he⟩ := List.mem_map.mp this
      rw [← he]
      exact of_decide_eq_true (List.mem_filter.mp hy).2
    have hPn : ∀ x ∈ P, ∃ p, p < n ∧ key x = some p := by
      intro x hx
      have : key x ∈ P.map key := List.mem_map.mpr ⟨x, hx, rfl⟩
      rw [hP] at this
      obtain ⟨y, hy, he⟩ := List.mem_map.mp this
      rw [← he]
      exact byKey_low key n l y hy
    rw [byKey_succ, byKey_append key n P Q (fun x hx => ⟨n, Nat.le_refl _, hQn x hx⟩), byKey_fix key n l P hP, List.filter_append]
    have h1 : P.filter (fun x => decide (key x = some n)) = [] := by
      rw [List.filter_eq_nil_iff]
      intro x hx hd
      obtain ⟨p, hp, hk⟩ := hPn x hx
      have := of_decide_eq_true hd
      rw [hk] at this
      cases this
      omega
    have h2 : Q.filter (fun x => decide (key x = some n)) = Q := List.filter_eq_self.mpr (fun x hx => decide_eq_true (hQn x hx))
    rw [h1, h2, List.nil_append]

theorem byPage_key (n : Nat) (els : List (List Val)) : byPage n els = byKey (pageNo n) n els := rfl

/-! ### the lists of a panel -/

theorem countAt_show (n : Nat) (l : List Val) : countAt (.str (showNat n) :: l) 0 = some n := Form.count_show n

theorem skip_anchors (hs : List (Nat × Val)) (R : List Val) : skipLists 4 (anchorLists hs ++ R) = some R := by
  have h : ∀ (ks : List Nat), skipLists ks.length (ks.flatMap (fun k => Val.str (showNat (hs.filter (fun h => decide (h.1 = k))).length) ::
      (hs.filter (fun h => decide (h.1 = k))).map (·.2)) ++ R) = some R := by
    intro ks
    induction ks with
    | nil => rfl
    | cons k r ih =>
      rw [List.flatMap_cons, List.length_cons, skipLists, List.cons_append, List.cons_append, countAt_show, Option.bind_some,
        Nat.add_comm 1, List.drop_succ_cons, List.append_assoc, List.drop_left' (by rw [List.length_map])]
      exact ih
  exact h (List.range 4)

theorem skip_drop : ∀ (k : Nat) (l r : List Val), skipLists k l = some r → ∃ m, r = l.drop m
  | 0, l, r, h => by cases h; exact ⟨0, rfl⟩
  | k + 1, l, r, h => by
    rw [skipLists, Option.bind_eq_some_iff] at h
    obtain ⟨n, _, h⟩ := h
    obtain ⟨m, hm⟩ := skip_drop k _ r h
    exact ⟨1 + n + m, by rw [hm, List.drop_drop]⟩

theorem skip_split (pr R : List Val) (hR : skipLists 4 (pr.drop 2) = some R) : ∃ A, pr = A ++ R ∧ 2 ≤ A.length ∧ pr.take 2 = A.take 2 := by
  obtain ⟨m, hm⟩ := skip_drop 4 _ R hR
  rw [List.drop_drop] at hm
  have h2 : 2 < pr.length := by
    rw [skipLists, Option.bind_eq_some_iff] at hR
    obtain ⟨n, hn, _⟩ := hR
    have := countAt_some _ _ _ hn
    rw [List.getElem?_eq_some_iff] at this
    obtain ⟨hlt, _⟩ := this
    rw [List.length_drop] at hlt
    omega
  refine ⟨pr.take (2 + m), by rw [hm, List.take_append_drop], by rw [List.length_take]; omega, ?_⟩
  rw [List.take_take, Nat.min_eq_left (by omega)]

/-- the number of pages, read behind the lists -/
theorem pageCount_behind (pr R : List Val) (hR : skipLists 4 (pr.drop 2) = some R) :
    pageCount pr = (calcOffset R restTable 0).bind (fun o => (listOf R[o]?).bind (fun l => countAt l 1)) := by
  obtain ⟨A, rfl, hA, _⟩ := skip_split pr R hR
  rw [pageCount, offset_split A R hR (by omega)]
  cases calcOffset R restTable 0 with
  | none => rfl
  | some o =>
    rw [Option.map_some, Option.bind_some, Option.bind_some, List.getElem?_append_right (by omega), Nat.add_sub_cancel_left]

theorem panelData_new (pr R : List Val) (hR : skipLists 4 (pr.drop 2) = some R) (hs : List (Nat × Val)) :
    skipLists 4 ((pr.take 2 ++ (anchorLists hs ++ R)).drop 2) = some R ∧ (pr.take 2 ++ (anchorLists hs ++ R)).take 2 = pr.take 2 ∧
      pageCount (pr.take 2 ++ (anchorLists hs ++ R)) = pageCount pr := by
  obtain ⟨A, hA, hA2, _⟩ := skip_split pr R hR
  have hl : (pr.take 2).length = 2 := by rw [List.length_take, hA, List.length_append]; omega
  have h1 : skipLists 4 ((pr.take 2 ++ (anchorLists hs ++ R)).drop 2) = some R := by
    rw [List.drop_left' hl]
    exact skip_anchors hs R
  exact ⟨h1, List.take_left' hl, by rw [pageCount_behind _ R h1, pageCount_behind _ R hR]⟩

end V8.OAuto
