import Verif.JsonTextMain
namespace V8.JsonText
open V8.Dec V8.Brace V8.Enc

/-- a proper prefix -/
def Cut (p t : Text) : Prop := p <+: t ∧ p ≠ t

theorem cut_nil {p : Text} (h : Cut p []) : False := h.2 (List.prefix_nil.mp h.1)

theorem cut_cons {p : Text} {c : Char} {t : Text} (h : Cut p (c :: t)) : p = [] ∨ ∃ q, p = c :: q ∧ Cut q t := by
  cases p with
  | nil => exact .inl rfl
  | cons d q =>
    obtain ⟨h1, h2⟩ := h
    rw [List.cons_prefix_cons] at h1
    obtain ⟨rfl, h1⟩ := h1
    exact .inr ⟨q, rfl, h1, fun e => h2 (by rw [e])⟩

theorem cut_append {p a b : Text} (h : Cut p (a ++ b)) : Cut p a ∨ ∃ q, p = a ++ q ∧ Cut q b := by
  induction a generalizing p with
  | nil => exact .inr ⟨p, rfl, h⟩
  | cons c a ih =>
    rcases cut_cons h with rfl | ⟨q, rfl, hq⟩
    · exact .inl ⟨List.nil_prefix, by simp⟩
    · rcases ih hq with h1 | ⟨z, rfl, hz⟩
      · refine .inl ⟨?_, fun e => h1.2 (by injection e)⟩
        rw [List.cons_prefix_cons]; exact ⟨rfl, h1.1⟩
      · exact .inr ⟨z, rfl, hz⟩

/-- a prefix of the blanks of a new line is skipped -/
theorem skip_cut_nl {p : Text} {lvl : Nat} (h : Cut p (nl lvl)) : skip p = [] := by
  rcases cut_cons h with rfl | ⟨q, rfl, hq⟩
  · rfl
  · have : ∀ (k : Nat) (q : Text), Cut q (List.replicate k ' ') → skip q = [] := by
      intro k
      induction k with
      | zero => intro q hq; exact (cut_nil hq).elim
      | succ k ih =>
        intro q hq
        rw [List.replicate_succ] at hq
        rcases cut_cons hq with rfl | ⟨z, rfl, hz⟩
        · rfl
        · have := ih z hz
          rw [skip, List.dropWhile_cons_of_pos (by decide)]
          exact this
    rw [skip, List.dropWhile_cons_of_pos (by decide)]
    exact this _ q hq

theorem skip_nil : skip [] = [] := rfl

/-! ### strings -/

theorem scan_nil : scan [] = none := by rw [scan.eq_def]

theorem scan_cut_esc {c : Char} {p : Text} (h : Cut p (escChar c)) : scan p = none := by
  have two : ∀ d : Char, Cut p ['\\', d] → scan p = none := by
    intro d h
    rcases cut_cons h with rfl | ⟨q, rfl, hq⟩
    · exact scan_nil
    · rcases cut_cons hq with rfl | ⟨z, rfl, hz⟩
      · rw [scan.eq_def]; rfl
      · exact (cut_nil hz).elim
  unfold escChar at h
  by_cases h1 : c = '"'
  · rw [if_pos h1] at h; exact two _ h
  rw [if_neg h1] at h
  by_cases h2 : c = '\\'
  · rw [if_pos h2] at h; exact two _ h
  rw [if_neg h2] at h
  by_cases h3 : c = '\n'
  · rw [if_pos h3] at h; exact two _ h
  rw [if_neg h3] at h
  by_cases h4 : c = '\r'
  · rw [if_pos h4] at h; exact two _ h
  rw [if_neg h4] at h
  by_cases h5 : c = '\t'
  · rw [if_pos h5] at h; exact two _ h
  rw [if_neg h5] at h
  by_cases h6 : c.toNat = 12
  · rw [if_pos h6] at h; exact two _ h
  rw [if_neg h6] at h
  by_cases h7 : c.toNat = 8
  · rw [if_pos h7] at h; exact two _ h
  rw [if_neg h7] at h
  by_cases h8 : c.toNat < 32
  · rw [if_pos h8] at h
    replace h := cut_cons h
    rcases h with rfl | ⟨q, rfl, h⟩
    · exact scan_nil
    replace h := cut_cons h
    rcases h with rfl | ⟨q, rfl, h⟩
    · rw [scan.eq_def]; rfl
    replace h := cut_cons h
    rcases h with rfl | ⟨q, rfl, h⟩
    · rw [scan.eq_def]; rfl
    replace h := cut_cons h
    rcases h with rfl | ⟨q, rfl, h⟩
    · rw [scan.eq_def]; rfl
    replace h := cut_cons h
    rcases h with rfl | ⟨q, rfl, h⟩
    · rw [scan.eq_def]; rfl
    replace h := cut_cons h
    rcases h with rfl | ⟨q, rfl, h⟩
    · rw [scan.eq_def]; rfl
    · exact (cut_nil h).elim
  · rw [if_neg h8] at h
    replace h := cut_cons h
    rcases h with rfl | ⟨q, rfl, h⟩
    · exact scan_nil
    · exact (cut_nil h).elim

theorem scan_cut {s p : Text} (h : Cut p (escText s)) : scan p = none := by
  unfold escText at h
  induction s generalizing p with
  | nil =>
    replace h := cut_cons h
    rcases h with rfl | ⟨q, rfl, h⟩
    · exact scan_nil
    · exact (cut_nil h).elim
  | cons c s ih =>
    rw [List.flatMap_cons, List.append_assoc] at h
    rcases cut_append h with h1 | ⟨q, rfl, h1⟩
    · exact scan_cut_esc h1
    · rw [scan_escChar, ih h1, push_none]

/-! ### values -/

/-- a text that cannot be continued to a larger value: it is no value, or a value that ends with it -/
def Ended (p : Text) : Prop := ∀ n, value n p = none ∨ ∃ v, value n p = some (v, [])

theorem cut_lit (w p : Text) (hp : Cut p w) (hw : ∀ k, k < w.length → plain (w.take k) = none)
    (hh : ∀ c r, w = c :: r → c ≠ '"' ∧ c ≠ '{' ∧ c ≠ '[') : Ended p := by
  intro n
  left
  cases n with
  | zero => rw [value.eq_def]
  | succ n =>
    have e : p = w.take p.length := List.prefix_iff_eq_take.mp hp.1
    have hl : p.length < w.length := by
      have := hp.1.length_le
      rcases Nat.lt_or_ge p.length w.length with h | h
      · exact h
      · exact absurd (hp.1.eq_of_length (by omega)) hp.2
    cases p with
    | nil => exact value_nil _
    | cons c q =>
      obtain ⟨t, ht⟩ := hp.1
      rw [value_plain n c q (hh c (q ++ t) (by rw [← ht]; rfl)), e]
      exact hw _ hl

theorem number_digits (c : Char) (q : Text) (h0 : c ≠ '0') (hc : isDigit c = true) (hq : ∀ d ∈ q, isDigit d = true) :
    intPart (c :: q) = some (c :: q, []) := by
  rw [intPart.eq_def]
  simp only
  rw [if_neg h0, if_pos hc]
  have := take_digits q [] hq trivial
  rw [List.append_nil] at this
  rw [this.1, this.2]

/-- a proper prefix of the digits of a number: nothing, or digits without a leading zero -/
theorem cut_show {n : Nat} {p : Text} (h : Cut p (showNat n)) :
    p = [] ∨ ∃ c q, p = c :: q ∧ c ≠ '0' ∧ isDigit c = true ∧ ∀ d ∈ q, isDigit d = true := by
  by_cases h0 : n = 0
  · subst h0
    rw [showNat_zero] at h
    replace h := cut_cons h
    rcases h with rfl | ⟨q, rfl, h⟩
    · exact .inl rfl
    · exact (cut_nil h).elim
  · obtain ⟨c, r, h1, h2, h3, h4⟩ := showNat_head n h0
    rw [h1] at h
    replace h := cut_cons h
    rcases h with rfl | ⟨q, rfl, h⟩
    · exact .inl rfl
    · exact .inr ⟨c, q, rfl, h2, h3, fun d hd => h4 d (h.1.subset hd)⟩

theorem number_ended (n : Nat) (p : Text) (c : Char) (q : Text) (e : p = c :: q) (hc : c = '-' ∨ isDigit c = true)
    (h : number p = none ∨ ∃ v, number p = some (v, [])) : value n p = none ∨ ∃ v, value n p = some (v, []) := by
  cases n with
  | zero => left; rw [value.eq_def]
  | succ n =>
    subst e
    rw [value_plain n c q ⟨digit_ne hc (by decide), digit_ne hc (by decide), digit_ne hc (by decide)⟩,
      plain_number c q ⟨digit_ne hc (by decide), digit_ne hc (by decide), digit_ne hc (by decide)⟩]
    exact h

theorem cut_int (i : Int) (p : Text) (h : Cut p (showInt i)) : Ended p := by
  intro n
  cases i with
  | ofNat m =>
    rcases cut_show h with rfl | ⟨c, q, rfl, h0, hc, hq⟩
    · left; exact value_nil n
    · refine number_ended n _ c q rfl (.inr hc) ?_
      right
      have hi := number_digits c q h0 hc hq
      rw [number.eq_def]
      split
      · rename_i r heq
        cases heq
        exact absurd hc (by decide)
      · rw [hi]
        simp only
        rw [finish_stop _ _ [] trivial]
        exact ⟨_, rfl⟩
  | negSucc m =>
    replace h := cut_cons h
    rcases h with rfl | ⟨q, rfl, h⟩
    · left; exact value_nil n
    · refine number_ended n _ '-' q rfl (.inl rfl) ?_
      rcases cut_show h with rfl | ⟨c, q, rfl, h0, hc, hq⟩
      · left; rfl
      · right
        rw [number.eq_def]
        simp only
        rw [number_digits c q h0 hc hq]
        simp only
        rw [finish_stop _ _ [] trivial]
        exact ⟨_, rfl⟩

theorem value_none_of_nil {n : Nat} {t : Text} (h : t = []) : value n t = none := by subst h; exact value_nil n

/-- a prefix of the text of a value begins like it -/
theorem cut_head {p t : Text} {c : Char} {r : Text} (h : Cut p t) (ht : t = c :: r) (hc : isWs c = false) : skip p = p := by
  subst ht
  rcases cut_cons h with rfl | ⟨q, rfl, _⟩
  · rfl
  · exact skip_cons _ _ hc

theorem ended_items {p : Text} (h : Ended p) (n : Nat) : items n p = none := by
  cases n with
  | zero => rw [items.eq_def]
  | succ n =>
    rw [items.eq_def]
    simp only
    rcases h n with h | ⟨v, h⟩
    · rw [h]
    · rw [h]; rfl

theorem stop_cut {p t : Text} (h : Cut p t) (ht : Stop t) : Stop p := by
  cases p with
  | nil => trivial
  | cons c p =>
    obtain ⟨z, hz⟩ := h.1
    subst hz
    exact ht

theorem items_none_skip (n : Nat) (t r : Text) (v : JT) (h : value n t = some (v, r)) (hs : skip r = []) : items (n + 1) t = none := by
  rw [items.eq_def]; simp only; rw [h]; simp only; rw [hs]

mutual
theorem cut_value : ∀ (x : JT) (_ : x.WF) (lvl : Nat) (p : Text) (_ : Cut p (dump lvl x)) (n : Nat) (_ : 2 * p.length + 1 ≤ n),
    value n p = none ∨ ∃ v, value n p = some (v, []) ∧ (∀ l, x ≠ .arr l) ∧ ∀ d, x ≠ .obj d
  | .null, _, lvl, p, h, n, _ => by
    rw [dump] at h
    rcases cut_lit _ p h (by decide) (by intro c r e; cases e; decide) n with h | ⟨v, h⟩
    · exact .inl h
    · exact .inr ⟨v, h, fun _ => by simp, fun _ => by simp⟩
  | .bool true, _, lvl, p, h, n, _ => by
    rw [dump] at h
    rcases cut_lit _ p h (by decide) (by intro c r e; cases e; decide) n with h | ⟨v, h⟩
    · exact .inl h
    · exact .inr ⟨v, h, fun _ => by simp, fun _ => by simp⟩
  | .bool false, _, lvl, p, h, n, _ => by
    rw [dump] at h
    rcases cut_lit _ p h (by decide) (by intro c r e; cases e; decide) n with h | ⟨v, h⟩
    · exact .inl h
    · exact .inr ⟨v, h, fun _ => by simp, fun _ => by simp⟩
  | .int i, _, lvl, p, h, n, _ => by
    rw [dump] at h
    rcases cut_int i p h n with h | ⟨v, h⟩
    · exact .inl h
    · exact .inr ⟨v, h, fun _ => by simp, fun _ => by simp⟩
  | .float _, h, _, _, _, _, _ => absurd h (by rw [JT.WF]; exact id)
  | .str s, _, lvl, p, h, n, _ => by
    rw [dump] at h
    left
    rcases cut_cons h with rfl | ⟨q, rfl, hq⟩
    · exact value_nil n
    · cases n with
      | zero => rw [value.eq_def]
      | succ n => rw [value_str, scan_cut hq]; rfl
  | .arr [], _, lvl, p, h, n, _ => by
    rw [dump] at h
    left
    rcases cut_cons h with rfl | ⟨q, rfl, hq⟩
    · exact value_nil n
    · replace hq := cut_cons hq
      rcases hq with rfl | ⟨q, rfl, hq⟩
      · cases n with
        | zero => rw [value.eq_def]
        | succ n => rw [value_arr]; rfl
      · exact (cut_nil hq).elim
  | .arr (x :: l), h, lvl, p, hp, n, hn => by
    rw [JT.WF] at h
    rw [dump] at hp
    left
    rcases cut_cons hp with rfl | ⟨q, rfl, hq⟩
    · exact value_nil n
    · obtain ⟨n, rfl⟩ : ∃ n', n = n' + 1 := ⟨n - 1, by omega⟩
      rw [value_arr]
      rcases cut_append hq with hq | ⟨z, rfl, hz⟩
      · rw [skip_cut_nl hq]
      · rw [skip_nl]
        obtain ⟨c, r, h1, h2, _⟩ := dump_head x h.1 (lvl + 1)
        have e : skip z = z := cut_head hz (by rw [List.append_assoc, h1]; rfl) h2
        rw [e]
        have hi := cut_items x l h.1 h.2 (lvl + 1) lvl z hz n (by
          simp only [List.length_append, List.length_cons] at hn ⊢; omega)
        cases z with
        | nil => rfl
        | cons d z =>
          simp only
          have hd : d ≠ ']' := by
            obtain ⟨w, hw⟩ := hz.1
            rw [List.append_assoc, h1, List.cons_append, List.cons_append] at hw
            injection hw with hw
            rw [hw]
            exact (fun hc => by
              obtain ⟨c', r', h1', _, h3', _⟩ := dump_head x h.1 (lvl + 1)
              rw [h1] at h1'
              injection h1' with e1 _
              exact h3' (by rw [← e1, hc]))
          rw [if_neg hd, hi]
          rfl
  | .obj [], _, lvl, p, h, n, _ => by
    rw [dump] at h
    left
    rcases cut_cons h with rfl | ⟨q, rfl, hq⟩
    · exact value_nil n
    · replace hq := cut_cons hq
      rcases hq with rfl | ⟨q, rfl, hq⟩
      · cases n with
        | zero => rw [value.eq_def]
        | succ n => rw [value_obj]; rfl
      · exact (cut_nil hq).elim
  | .obj ((k, x) :: l), h, lvl, p, hp, n, hn => by
    rw [JT.WF, WFd] at h
    rw [dump] at hp
    left
    rcases cut_cons hp with rfl | ⟨q, rfl, hq⟩
    · exact value_nil n
    · obtain ⟨n, rfl⟩ : ∃ n', n = n' + 1 := ⟨n - 1, by omega⟩
      rw [value_obj]
      rcases cut_append hq with hq | ⟨z, rfl, hz⟩
      · rw [skip_cut_nl hq]
      · rw [skip_nl]
        rcases cut_cons hz with rfl | ⟨w, rfl, hw⟩
        · rfl
        · rw [skip_cons _ _ (by decide)]
          simp only
          rw [if_neg (by decide), if_pos trivial]
          have := cut_members k x l h.2.1 h.2.2 (lvl + 1) lvl w hw n (by
            simp only [List.length_append, List.length_cons] at hn ⊢; omega)
          rw [this]
          rfl
termination_by x => sizeOf x
theorem cut_items : ∀ (x : JT) (l : List JT) (_ : x.WF) (_ : WFs l) (lvl k : Nat) (p : Text)
    (_ : Cut p (dump lvl x ++ dumpItems lvl l ++ (nl k ++ [']']))) (n : Nat) (_ : 2 * p.length + 2 ≤ n), items n p = none
  | x, [], hx, _, lvl, k, p, hp, n, hn => by
    obtain ⟨n, rfl⟩ : ∃ n', n = n' + 1 := ⟨n - 1, by omega⟩
    rw [List.append_assoc] at hp
    rcases cut_append hp with h | ⟨q, rfl, hq⟩
    · rw [items.eq_def]
      simp only
      rcases cut_value x hx lvl p h n (by omega) with h | ⟨v, h, _⟩
      · rw [h]
      · rw [h]; rfl
    · have hv := value_dump x hx lvl n q (stop_cut hq (stop_items lvl k _ _)) (by omega)
      rw [dumpItems, List.nil_append] at hq
      refine items_none_skip _ _ _ _ hv ?_
      rcases cut_append hq with hq | ⟨z, rfl, hz⟩
      · exact skip_cut_nl hq
      · rw [skip_nl]
        rcases cut_cons hz with rfl | ⟨w, rfl, hw⟩
        · rfl
        · exact (cut_nil hw).elim
  | x, y :: l, hx, hl, lvl, k, p, hp, n, hn => by
    obtain ⟨n, rfl⟩ : ∃ n', n = n' + 1 := ⟨n - 1, by omega⟩
    rw [List.append_assoc] at hp
    rcases cut_append hp with h | ⟨q, rfl, hq⟩
    · rw [items.eq_def]
      simp only
      rcases cut_value x hx lvl p h n (by omega) with h | ⟨v, h, _⟩
      · rw [h]
      · rw [h]; rfl
    · have hv := value_dump x hx lvl n q (stop_cut hq (stop_items lvl k _ _)) (by omega)
      rw [WFs] at hl
      rw [dumpItems, List.cons_append, List.append_assoc] at hq
      rw [items.eq_def]
      simp only
      rw [hv]
      simp only
      rcases cut_cons hq with rfl | ⟨z, rfl, hz⟩
      · rfl
      · rw [skip_cons _ _ (by decide)]
        simp only
        rw [if_neg (by decide), if_pos trivial]
        have : items n (skip z) = none := by
          obtain ⟨n, rfl⟩ : ∃ n', n = n' + 1 := ⟨n - 1, by
            simp only [List.length_append, List.length_cons] at hn; omega⟩
          rcases cut_append hz with hz | ⟨w, rfl, hw⟩
          · rw [skip_cut_nl hz, items.eq_def]; simp only [value_nil]
          · rw [skip_nl]
            obtain ⟨c, r, h1, h2, _⟩ := dump_head y hl.1 lvl
            rw [cut_head hw (by rw [List.append_assoc, h1]; rfl) h2]
            exact cut_items y l hl.1 hl.2 lvl k w hw (n + 1) (by
              simp only [List.length_append, List.length_cons] at hn ⊢; omega)
        rw [this]
        rfl
termination_by x l => sizeOf x + sizeOf l
theorem cut_members : ∀ (key : Text) (x : JT) (l : List (Text × JT)) (_ : x.WF) (_ : WFd l) (lvl k : Nat) (p : Text)
    (_ : Cut p (escText key ++ (':' :: ' ' :: (dump lvl x ++ dumpMembers lvl l ++ (nl k ++ ['}']))))) (n : Nat) (_ : 2 * p.length + 2 ≤ n),
    members n p = none
  | key, x, [], hx, _, lvl, k, p, hp, n, hn => by
    obtain ⟨n, rfl⟩ : ∃ n', n = n' + 1 := ⟨n - 1, by omega⟩
    rw [members.eq_def]
    simp only
    have es : ∀ t, skip (' ' :: t) = skip t := fun t => by simp [skip, List.dropWhile, isWs]
    rcases cut_append hp with h | ⟨q, rfl, hq⟩
    · rw [scan_cut h]
    · rw [scan_escText]
      simp only
      replace hq := cut_cons hq
      rcases hq with rfl | ⟨q, rfl, hq⟩
      · rfl
      rw [skip_cons _ _ (by decide)]
      simp only
      rw [if_pos trivial]
      replace hq := cut_cons hq
      rcases hq with rfl | ⟨q, rfl, hq⟩
      · rw [skip_nil, value_nil]
      rw [es]
      obtain ⟨c, r, h1, h2, _⟩ := dump_head x hx lvl
      rw [cut_head hq (by rw [List.append_assoc, h1]; rfl) h2]
      simp only [List.length_append, List.length_cons] at hn
      rw [List.append_assoc] at hq
      rcases cut_append hq with hq | ⟨z, rfl, hz⟩
      · rcases cut_value x hx lvl q hq n (by omega) with h | ⟨v, h, _⟩
        · rw [h]
        · rw [h]; rfl
      · rw [value_dump x hx lvl n z (stop_cut hz (stop_members lvl k _ _)) (by omega)]
        simp only
        rw [dumpMembers, List.nil_append] at hz
        have : skip z = [] := by
          rcases cut_append hz with hz | ⟨z', rfl, hz'⟩
          · exact skip_cut_nl hz
          · rw [skip_nl]
            rcases cut_cons hz' with rfl | ⟨w, rfl, hw⟩
            · rfl
            · exact (cut_nil hw).elim
        rw [this]
  | key, x, (k2, y) :: l, hx, hl, lvl, k, p, hp, n, hn => by
    obtain ⟨n, rfl⟩ : ∃ n', n = n' + 1 := ⟨n - 1, by omega⟩
    rw [members.eq_def]
    simp only
    have es : ∀ t, skip (' ' :: t) = skip t := fun t => by simp [skip, List.dropWhile, isWs]
    rcases cut_append hp with h | ⟨q, rfl, hq⟩
    · rw [scan_cut h]
    · rw [scan_escText]
      simp only
      replace hq := cut_cons hq
      rcases hq with rfl | ⟨q, rfl, hq⟩
      · rfl
      rw [skip_cons _ _ (by decide)]
      simp only
      rw [if_pos trivial]
      replace hq := cut_cons hq
      rcases hq with rfl | ⟨q, rfl, hq⟩
      · rw [skip_nil, value_nil]
      rw [es]
      obtain ⟨c, r, h1, h2, _⟩ := dump_head x hx lvl
      rw [cut_head hq (by rw [List.append_assoc, h1]; rfl) h2]
      simp only [List.length_append, List.length_cons] at hn
      rw [List.append_assoc] at hq
      rcases cut_append hq with hq | ⟨z, rfl, hz⟩
      · rcases cut_value x hx lvl q hq n (by omega) with h | ⟨v, h, _⟩
        · rw [h]
        · rw [h]; rfl
      · rw [value_dump x hx lvl n z (stop_cut hz (stop_members lvl k _ _)) (by omega)]
        simp only
        rw [WFd] at hl
        rw [dumpMembers, List.cons_append, List.append_assoc] at hz
        replace hz := cut_cons hz
        rcases hz with rfl | ⟨z, rfl, hz⟩
        · rfl
        rw [skip_cons _ _ (by decide)]
        simp only
        rw [if_neg (by decide), if_pos trivial]
        rcases cut_append hz with hz | ⟨w, rfl, hw⟩
        · rw [skip_cut_nl hz]
        · rw [skip_nl]
          rw [List.cons_append] at hw
          replace hw := cut_cons hw
          rcases hw with rfl | ⟨w, rfl, hw⟩
          · rfl
          rw [skip_cons _ _ (by decide)]
          simp only
          rw [if_pos trivial]
          have := cut_members k2 y l hl.1 hl.2 lvl k w (by
            simpa only [List.append_assoc, List.cons_append] using hw) n (by
            simp only [List.length_append, List.length_cons] at hn ⊢; omega)
          rw [this]
          rfl
termination_by _ x l => sizeOf x + sizeOf l
end

theorem loads_cut (x : JT) (h : x.WF) (hx : (∃ l, x = .arr l) ∨ ∃ d, x = .obj d) (p : Text) (hp : Cut p (dump 0 x)) : loads p = none := by
  obtain ⟨c, r, h1, h2, _, _⟩ := dump_head x h 0
  unfold loads
  by_cases hb : p.head? = some bom
  · rw [if_pos hb]
  · rw [if_neg hb, cut_head hp h1 h2]
    rcases cut_value x h 0 p hp _ (Nat.le_refl _) with h | ⟨v, h, ha, ho⟩
    · rw [h]
    · rcases hx with ⟨l, rfl⟩ | ⟨d, rfl⟩
      · exact absurd rfl (ha l)
      · exact absurd rfl (ho d)

/-! ### bytes -/

theorem utf8_prefix (p t : Text) (b : Bytes) (h : utf8 p ++ b = utf8 t) : p <+: t := by
  induction p generalizing t with
  | nil => exact List.nil_prefix
  | cons c p ih =>
    cases t with
    | nil =>
      rw [utf8_cons, utf8_nil, utf8_single] at h
      have : (String.utf8EncodeChar c) = [] := by
        have := congrArg List.length h
        simp at this
        have hp := Char.utf8Size_pos c
        omega
      have hl : 0 < (String.utf8EncodeChar c).length := by rw [String.length_utf8EncodeChar]; exact Char.utf8Size_pos c
      rw [this] at hl; simp at hl
    | cons d t =>
      rw [utf8_cons, utf8_cons d, List.append_assoc] at h
      have hc := utf8_prefix_free h
      subst hc
      rw [List.append_cancel_left_eq] at h
      rw [List.cons_prefix_cons]
      exact ⟨rfl, ih t h⟩

theorem universal_cut (win : Bool) (s p : Text) (hr : '\r' ∉ s) (hl : s.getLast? ≠ some '\n') (h : Cut p (osWrite win s)) :
    Cut (universal p) s := by
  cases win with
  | false =>
    have e : osWrite false s = s := by simp [osWrite]
    rw [e] at h
    have hp : '\r' ∉ p := fun hm => hr (h.1.subset hm)
    have : universal p = p := by
      have := V8.Module.universal_osWrite false p hp
      simpa [osWrite] using this
    rw [this]
    exact h
  | true =>
    have e : ∀ c t, osWrite true (c :: t) = (if c = '\n' then ['\r', '\n'] else [c]) ++ osWrite true t := by
      intro c t; simp [osWrite]
    have e0 : osWrite true [] = [] := rfl
    induction s generalizing p with
    | nil => rw [e0] at h; exact (cut_nil h).elim
    | cons c s ih =>
      rw [List.mem_cons, not_or] at hr
      rw [e] at h
      by_cases hc : c = '\n'
      · subst hc
        have hs : s ≠ [] := by rintro rfl; exact hl rfl
        have hl' : s.getLast? ≠ some '\n' := by
          cases s with
          | nil => exact absurd rfl hs
          | cons d s => rw [List.getLast?_cons_cons] at hl; exact hl
        rw [if_pos rfl] at h
        replace h := cut_cons h
        rcases h with rfl | ⟨q, rfl, h⟩
        · exact ⟨List.nil_prefix, by simp [universal]⟩
        replace h := cut_cons (c := '\n') (t := osWrite true s) h
        rcases h with rfl | ⟨q, rfl, h⟩
        · have : universal ['\r'] = ['\n'] := by decide
          rw [this]
          refine ⟨by rw [List.cons_prefix_cons]; exact ⟨rfl, List.nil_prefix⟩, ?_⟩
          intro hh
          injection hh with _ hh
          exact hs hh.symm
        · have := ih q hr.2 hl' h
          rw [universal]
          refine ⟨by rw [List.cons_prefix_cons]; exact ⟨rfl, this.1⟩, fun hh => this.2 (by injection hh)⟩
      · rw [if_neg hc] at h
        replace h := cut_cons h
        rcases h with rfl | ⟨q, rfl, h⟩
        · exact ⟨List.nil_prefix, by simp [universal]⟩
        replace h : Cut q (osWrite true s) := h
        have hs : s ≠ [] := by rintro rfl; rw [e0] at h; exact cut_nil h
        have hl' : s.getLast? ≠ some '\n' := by
          cases s with
          | nil => exact absurd rfl hs
          | cons d s => rw [List.getLast?_cons_cons] at hl; exact hl
        have hcr : c ≠ '\r' := fun hh => hr.1 hh.symm
        have := ih q hr.2 hl' h
        have eu : universal (c :: q) = c :: universal q := by
          rw [universal.eq_def]
          split
          · rename_i heq; cases heq
          · rename_i heq; cases heq; exact absurd rfl hcr
          · rename_i heq; cases heq; exact absurd rfl hcr
          · rename_i heq; cases heq; rfl
        rw [eu]
        refine ⟨by rw [List.cons_prefix_cons]; exact ⟨rfl, this.1⟩, fun hh => this.2 (by injection hh)⟩

theorem esc_nocr (s : Text) : '\r' ∉ escText s := by
  unfold escText
  intro h
  rcases List.mem_append.mp h with h | h
  · obtain ⟨c, _, h⟩ := List.mem_flatMap.mp h
    unfold escChar at h
    by_cases h1 : c = '"'
    · rw [if_pos h1] at h; revert h; decide
    rw [if_neg h1] at h
    by_cases h1 : c = '\\'
    · rw [if_pos h1] at h; revert h; decide
    rw [if_neg h1] at h
    by_cases h1 : c = '\n'
    · rw [if_pos h1] at h; revert h; decide
    rw [if_neg h1] at h
    by_cases h1 : c = '\r'
    · rw [if_pos h1] at h; revert h; decide
    rw [if_neg h1] at h
    by_cases h1' : c = '\t'
    · rw [if_pos h1'] at h; revert h; decide
    rw [if_neg h1'] at h
    by_cases h1' : c.toNat = 12
    · rw [if_pos h1'] at h; revert h; decide
    rw [if_neg h1'] at h
    by_cases h1' : c.toNat = 8
    · rw [if_pos h1'] at h; revert h; decide
    rw [if_neg h1'] at h
    by_cases h1' : c.toNat < 32
    · rw [if_pos h1'] at h
      have : ∀ n < 32, '\r' ∉ ['\\', 'u', '0', '0', hexDigit (n / 16), hexDigit (n % 16)] := by decide
      exact this _ h1' h
    · rw [if_neg h1'] at h
      exact h1 (List.mem_singleton.mp h).symm
  · revert h; decide

theorem nl_nocr (lvl : Nat) : '\r' ∉ nl lvl := by
  intro h
  rcases List.mem_cons.mp h with h | h
  · revert h; decide
  · have := List.eq_of_mem_replicate h; revert this; decide

mutual
theorem dump_nocr : ∀ (x : JT) (_ : x.WF) (lvl : Nat), '\r' ∉ dump lvl x
  | .null, _, _ => by rw [dump]; decide
  | .bool true, _, _ => by rw [dump]; decide
  | .bool false, _, _ => by rw [dump]; decide
  | .int i, _, lvl => by
    rw [dump]
    have key : ∀ n, '\r' ∉ showNat n := fun n h => absurd (showNat_digits n _ h) (by decide)
    cases i with
    | ofNat n => exact key n
    | negSucc n =>
      intro h
      rcases List.mem_cons.mp h with h | h
      · revert h; decide
      · exact key _ h
  | .float _, h, _ => absurd h (by rw [JT.WF]; exact id)
  | .str s, _, _ => by
    rw [dump]
    intro h
    rcases List.mem_cons.mp h with h | h
    · revert h; decide
    · exact esc_nocr s h
  | .arr [], _, _ => by rw [dump]; decide
  | .arr (x :: l), h, lvl => by
    rw [JT.WF] at h
    have h1 := dump_nocr x h.1 (lvl + 1)
    have h2 := items_nocr l h.2 (lvl + 1)
    have h3 := nl_nocr (lvl + 1)
    have h4 := nl_nocr lvl
    rw [dump]
    simp only [List.mem_cons, List.mem_append, not_or]
    exact ⟨by decide, h3, ⟨h1, h2⟩, h4, by decide, by simp⟩
  | .obj [], _, _ => by rw [dump]; decide
  | .obj ((k, x) :: l), h, lvl => by
    rw [JT.WF, WFd] at h
    have h1 := dump_nocr x h.2.1 (lvl + 1)
    have h2 := members_nocr l h.2.2 (lvl + 1)
    have h3 := nl_nocr (lvl + 1)
    have h4 := nl_nocr lvl
    have h5 := esc_nocr k
    rw [dump]
    simp only [List.mem_cons, List.mem_append, not_or]
    exact ⟨by decide, h3, by decide, h5, by decide, by decide, ⟨h1, h2⟩, h4, by decide, by simp⟩
termination_by x => sizeOf x
theorem items_nocr : ∀ (l : List JT) (_ : WFs l) (lvl : Nat), '\r' ∉ dumpItems lvl l
  | [], _, _ => by rw [dumpItems]; simp
  | x :: l, h, lvl => by
    rw [WFs] at h
    have h1 := dump_nocr x h.1 lvl
    have h2 := items_nocr l h.2 lvl
    have h3 := nl_nocr lvl
    rw [dumpItems]
    simp only [List.mem_cons, List.mem_append, not_or]
    exact ⟨by decide, h3, h1, h2⟩
termination_by l => sizeOf l
theorem members_nocr : ∀ (l : List (Text × JT)) (_ : WFd l) (lvl : Nat), '\r' ∉ dumpMembers lvl l
  | [], _, _ => by rw [dumpMembers]; simp
  | (k, x) :: l, h, lvl => by
    rw [WFd] at h
    have h1 := dump_nocr x h.1 lvl
    have h2 := members_nocr l h.2 lvl
    have h3 := nl_nocr lvl
    have h5 := esc_nocr k
    rw [dumpMembers]
    simp only [List.mem_cons, List.mem_append, not_or]
    exact ⟨by decide, h3, by decide, h5, by decide, by decide, h1, h2⟩
termination_by l => sizeOf l
end

theorem dump_last (x : JT) (hx : (∃ l, x = .arr l) ∨ ∃ d, x = .obj d) (lvl : Nat) : (dump lvl x).getLast? ≠ some '\n' := by
  have e : ∀ (t : Text) (c : Char), c ≠ '\n' → (t ++ [c]).getLast? ≠ some '\n' := by
    intro t c hc h
    rw [List.getLast?_concat] at h
    exact hc (Option.some.inj h)
  have app : ∀ (a b : Text) (c : Char), a ++ (b ++ [c]) = (a ++ b) ++ [c] := fun a b c => (List.append_assoc _ _ _).symm
  rcases hx with ⟨l, rfl⟩ | ⟨d, rfl⟩
  · cases l with
    | nil => rw [dump]; decide
    | cons x l =>
      rw [dump, app, app, ← List.cons_append]
      exact e _ _ (by decide)
  · match d with
    | [] => rw [dump]; decide
    | (k, x) :: l =>
      have : dump lvl (.obj ((k, x) :: l)) = ('{' :: (nl (lvl + 1) ++ ('"' :: (escText k ++ (':' :: ' ' :: (dump (lvl + 1) x ++
          dumpMembers (lvl + 1) l ++ nl lvl)))))) ++ ['}'] := by
        rw [dump]; simp [List.append_assoc]
      rw [this]
      exact e _ _ (by decide)

end V8.JsonText
