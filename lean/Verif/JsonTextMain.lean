import Verif.JsonTextLemmas
namespace V8.JsonText
open V8.Dec V8.Brace V8.Enc

/-! ### one step of the reader -/

theorem value_str (n : Nat) (r : Text) : value (n + 1) ('"' :: r) = (scan r).map (fun p => (.str p.1, p.2)) := by
  rw [value.eq_def]; simp only; rw [if_pos trivial]

theorem value_obj (n : Nat) (r : Text) : value (n + 1) ('{' :: r) = match skip r with
      | [] => none
      | c :: r => if c = '}' then some (.obj [], r)
        else if c = '"' then (members n r).map (fun p => (.obj (dictOf p.1), p.2)) else none := by
  rw [value.eq_def]; simp only; rw [if_neg (by decide), if_pos trivial]; cases skip r <;> rfl

theorem value_arr (n : Nat) (r : Text) : value (n + 1) ('[' :: r) = match skip r with
      | [] => none
      | c :: r => if c = ']' then some (.arr [], r) else (items n (c :: r)).map (fun p => (.arr p.1, p.2)) := by
  rw [value.eq_def]; simp only; rw [if_neg (by decide), if_neg (by decide), if_pos trivial]; cases skip r <;> rfl

theorem value_plain (n : Nat) (c : Char) (r : Text) (h : c ≠ '"' ∧ c ≠ '{' ∧ c ≠ '[') : value (n + 1) (c :: r) = plain (c :: r) := by
  rw [value.eq_def]; simp only; rw [if_neg h.1, if_neg h.2.1, if_neg h.2.2]

theorem value_nil (n : Nat) : value n [] = none := by cases n <;> (rw [value.eq_def])

/-! ### the rest gets shorter -/

theorem skip_cons_len {r q : Text} {c : Char} (h : skip r = c :: q) : q.length < r.length := by
  have := skip_len r
  rw [h] at this
  simp at this; omega

theorem all_len (n : Nat) : (∀ t v r, value n t = some (v, r) → r.length < t.length) ∧
    (∀ t v r, items n t = some (v, r) → r.length < t.length) ∧ (∀ t v r, members n t = some (v, r) → r.length < t.length) := by
  induction n with
  | zero =>
    refine ⟨fun t v r h => ?_, fun t v r h => ?_, fun t v r h => ?_⟩
    · rw [value.eq_def] at h; cases h
    · rw [items.eq_def] at h; cases h
    · rw [members.eq_def] at h; cases h
  | succ n ih =>
    refine ⟨fun t v r h => ?_, fun t v r h => ?_, fun t v r h => ?_⟩
    · cases t with
      | nil => rw [value_nil] at h; cases h
      | cons c t =>
        by_cases h1 : c = '"'
        · subst h1
          rw [value_str] at h
          cases hs : scan t with
          | none => rw [hs] at h; cases h
          | some p =>
            obtain ⟨s, q⟩ := p
            rw [hs] at h; cases h
            have := scan_len t _ _ hs
            simp; omega
        by_cases h2 : c = '{'
        · subst h2
          rw [value_obj] at h
          cases hs : skip t with
          | nil => rw [hs] at h; cases h
          | cons d q =>
            rw [hs] at h; simp only at h
            have hl := skip_cons_len hs
            by_cases h3 : d = '}'
            · rw [if_pos h3] at h; cases h; simp; omega
            · rw [if_neg h3] at h
              by_cases h4 : d = '"'
              · rw [if_pos h4] at h
                cases hm : members n q with
                | none => rw [hm] at h; cases h
                | some p =>
                  obtain ⟨m, z⟩ := p
                  rw [hm] at h; cases h
                  have := ih.2.2 _ _ _ hm
                  simp only [List.length_cons]; omega
              · rw [if_neg h4] at h; cases h
        by_cases h3 : c = '['
        · subst h3
          rw [value_arr] at h
          cases hs : skip t with
          | nil => rw [hs] at h; cases h
          | cons d q =>
            rw [hs] at h; simp only at h
            have hl := skip_cons_len hs
            by_cases h4 : d = ']'
            · rw [if_pos h4] at h; cases h; simp; omega
            · rw [if_neg h4] at h
              cases hm : items n (d :: q) with
              | none => rw [hm] at h; cases h
              | some p =>
                obtain ⟨m, z⟩ := p
                rw [hm] at h; cases h
                have := ih.2.1 _ _ _ hm
                simp at this ⊢; omega
        · rw [value_plain n c t ⟨h1, h2, h3⟩] at h
          exact plain_len _ _ _ h
    · rw [items.eq_def] at h; simp only at h
      cases hv : value n t with
      | none => rw [hv] at h; cases h
      | some p =>
        obtain ⟨x, q⟩ := p
        rw [hv] at h; simp only at h
        have h0 := ih.1 _ _ _ hv
        cases hs : skip q with
        | nil => rw [hs] at h; cases h
        | cons d z =>
          rw [hs] at h; simp only at h
          have hl := skip_cons_len hs
          by_cases h3 : d = ']'
          · rw [if_pos h3] at h; cases h; omega
          · rw [if_neg h3] at h
            by_cases h4 : d = ','
            · rw [if_pos h4] at h
              cases hm : items n (skip z) with
              | none => rw [hm] at h; cases h
              | some p =>
                obtain ⟨m, w⟩ := p
                rw [hm] at h; cases h
                have := ih.2.1 _ _ _ hm
                have := skip_len z
                show w.length < _
                omega
            · rw [if_neg h4] at h; cases h
    · rw [members.eq_def] at h; simp only at h
      cases hv : scan t with
      | none => rw [hv] at h; cases h
      | some p =>
        obtain ⟨k, q⟩ := p
        rw [hv] at h; simp only at h
        have h0 := scan_len _ _ _ hv
        cases hs : skip q with
        | nil => rw [hs] at h; cases h
        | cons d z =>
          rw [hs] at h; simp only at h
          have hl := skip_cons_len hs
          by_cases h3 : d = ':'
          · rw [if_pos h3] at h
            cases hw : value n (skip z) with
            | none => rw [hw] at h; cases h
            | some p =>
              obtain ⟨x, y⟩ := p
              rw [hw] at h; simp only at h
              have h5 := ih.1 _ _ _ hw
              have h6 := skip_len z
              cases hs2 : skip y with
              | nil => rw [hs2] at h; cases h
              | cons d2 y2 =>
                rw [hs2] at h; simp only at h
                have hl2 := skip_cons_len hs2
                by_cases h7 : d2 = '}'
                · rw [if_pos h7] at h; cases h; omega
                · rw [if_neg h7] at h
                  by_cases h8 : d2 = ','
                  · rw [if_pos h8] at h
                    cases hs3 : skip y2 with
                    | nil => rw [hs3] at h; cases h
                    | cons d3 y3 =>
                      rw [hs3] at h; simp only at h
                      have hl3 := skip_cons_len hs3
                      by_cases h9 : d3 = '"'
                      · rw [if_pos h9] at h
                        cases hm : members n y3 with
                        | none => rw [hm] at h; cases h
                        | some p =>
                          obtain ⟨m, w⟩ := p
                          rw [hm] at h; cases h
                          have := ih.2.2 _ _ _ hm
                          show w.length < _
                          omega
                      · rw [if_neg h9] at h; cases h
                  · rw [if_neg h8] at h; cases h
          · rw [if_neg h3] at h; cases h

/-- more depth than the text is long changes nothing: the bound of `value` is never met from `loads` -/
theorem enough (k : Nat) : (∀ t n m, t.length ≤ k → 2 * t.length + 1 ≤ n → 2 * t.length + 1 ≤ m → value n t = value m t) ∧
    (∀ t n m, t.length ≤ k → 2 * t.length + 2 ≤ n → 2 * t.length + 2 ≤ m → items n t = items m t) ∧
    (∀ t n m, t.length ≤ k → 2 * t.length + 2 ≤ n → 2 * t.length + 2 ≤ m → members n t = members m t) := by
  induction k with
  | zero =>
    have hv : ∀ t n m, t.length ≤ 0 → 2 * t.length + 1 ≤ n → 2 * t.length + 1 ≤ m → value n t = value m t := by
      intro t n m h _ _
      have : t = [] := List.length_eq_zero_iff.mp (by omega)
      subst this; rw [value_nil, value_nil]
    refine ⟨hv, ?_, ?_⟩
    · intro t n m h hn hm
      have : t = [] := List.length_eq_zero_iff.mp (by omega)
      subst this
      obtain ⟨n', rfl⟩ : ∃ n', n = n' + 1 := ⟨n - 1, by omega⟩
      obtain ⟨m', rfl⟩ : ∃ n', m = n' + 1 := ⟨m - 1, by omega⟩
      rw [items.eq_def, items.eq_def]; simp only [value_nil]
    · intro t n m h hn hm
      have : t = [] := List.length_eq_zero_iff.mp (by omega)
      subst this
      obtain ⟨n', rfl⟩ : ∃ n', n = n' + 1 := ⟨n - 1, by omega⟩
      obtain ⟨m', rfl⟩ : ∃ n', m = n' + 1 := ⟨m - 1, by omega⟩
      have e : scan [] = none := by rw [scan.eq_def]
      rw [members.eq_def, members.eq_def]; simp only [e]
  | succ k ih =>
    have hv : ∀ t n m, t.length ≤ k + 1 → 2 * t.length + 1 ≤ n → 2 * t.length + 1 ≤ m → value n t = value m t := by
      intro t n m h hn hm
      cases t with
      | nil => rw [value_nil, value_nil]
      | cons c t =>
        simp only [List.length_cons] at h hn hm
        obtain ⟨n, rfl⟩ : ∃ n', n = n' + 1 := ⟨n - 1, by omega⟩
        obtain ⟨m, rfl⟩ : ∃ n', m = n' + 1 := ⟨m - 1, by omega⟩
        by_cases h1 : c = '"'
        · subst h1; rw [value_str, value_str]
        by_cases h2 : c = '{'
        · subst h2
          rw [value_obj, value_obj]
          cases hs : skip t with
          | nil => rfl
          | cons d q =>
            have hl := skip_cons_len hs
            simp only
            rw [ih.2.2 q n m (by omega) (by omega) (by omega)]
        by_cases h3 : c = '['
        · subst h3
          rw [value_arr, value_arr]
          have hsl := skip_len t
          cases hs : skip t with
          | nil => rfl
          | cons d q =>
            rw [hs] at hsl
            simp only
            rw [ih.2.1 (d :: q) n m (by omega) (by omega) (by omega)]
        · rw [value_plain n c t ⟨h1, h2, h3⟩, value_plain m c t ⟨h1, h2, h3⟩]
    refine ⟨hv, ?_, ?_⟩
    · intro t n m h hn hm
      obtain ⟨n, rfl⟩ : ∃ n', n = n' + 1 := ⟨n - 1, by omega⟩
      obtain ⟨m, rfl⟩ : ∃ n', m = n' + 1 := ⟨m - 1, by omega⟩
      rw [items.eq_def, items.eq_def]
      simp only
      rw [hv t n m h (by omega) (by omega)]
      cases hx : value m t with
      | none => rfl
      | some p =>
        obtain ⟨x, q⟩ := p
        simp only
        have h0 := (all_len m).1 _ _ _ hx
        cases hs : skip q with
        | nil => rfl
        | cons d z =>
          have hl := skip_cons_len hs
          have := skip_len z
          simp only
          rw [ih.2.1 (skip z) n m (by omega) (by omega) (by omega)]
    · intro t n m h hn hm
      obtain ⟨n, rfl⟩ : ∃ n', n = n' + 1 := ⟨n - 1, by omega⟩
      obtain ⟨m, rfl⟩ : ∃ n', m = n' + 1 := ⟨m - 1, by omega⟩
      rw [members.eq_def, members.eq_def]
      simp only
      cases hx : scan t with
      | none => rfl
      | some p =>
        obtain ⟨x, q⟩ := p
        simp only
        have h0 := scan_len _ _ _ hx
        cases hs : skip q with
        | nil => rfl
        | cons d z =>
          have hl := skip_cons_len hs
          have hz := skip_len z
          simp only
          rw [hv (skip z) n m (by omega) (by omega) (by omega)]
          by_cases h3 : d = ':'
          · rw [if_pos h3, if_pos h3]
            cases hy : value m (skip z) with
            | none => rfl
            | some p =>
              obtain ⟨x2, y⟩ := p
              have h5 := (all_len m).1 _ _ _ hy
              simp only
              cases hs2 : skip y with
              | nil => rfl
              | cons d2 y2 =>
                have hl2 := skip_cons_len hs2
                simp only
                cases hs3 : skip y2 with
                | nil => rfl
                | cons d3 y3 =>
                  have hl3 := skip_cons_len hs3
                  simp only
                  rw [ih.2.2 y3 n m (by omega) (by omega) (by omega)]
          · rw [if_neg h3, if_neg h3]

theorem value_enough (t : Text) (n m : Nat) (hn : 2 * t.length + 1 ≤ n) (hm : 2 * t.length + 1 ≤ m) : value n t = value m t :=
  (enough t.length).1 t n m (Nat.le_refl _) hn hm

/-! ### dictionaries -/

theorem dset_new (d : List (Text × JT)) (k : Text) (v : JT) (h : ∀ p ∈ d, p.1 ≠ k) : dset d k v = d ++ [(k, v)] := by
  induction d with
  | nil => rfl
  | cons p d ih =>
    obtain ⟨k', v'⟩ := p
    rw [dset, if_neg (h _ List.mem_cons_self), ih (fun p hp => h p (List.mem_cons_of_mem _ hp))]
    rfl

theorem fold_dset (ps d : List (Text × JT)) (h : (d ++ ps).Pairwise (fun a b => a.1 ≠ b.1)) :
    ps.foldl (fun d p => dset d p.1 p.2) d = d ++ ps := by
  induction ps generalizing d with
  | nil => simp
  | cons p ps ih =>
    rw [List.foldl_cons, dset_new]
    · rw [ih]
      · simp
      · simpa using h
    · intro q hq
      exact (List.pairwise_append.mp h).2.2 q hq p List.mem_cons_self

theorem dictOf_id (ps : List (Text × JT)) (h : ps.Pairwise (fun a b => a.1 ≠ b.1)) : dictOf ps = ps := by
  have := fold_dset ps [] (by simpa using h)
  simpa [dictOf] using this

/-! ### which values -/

mutual
/-- data as the tool has them: no floats, the keys of a dict are distinct (always so in Python) -/
def JT.WF : JT → Prop
  | .float _ => False
  | .arr l => WFs l
  | .obj d => d.Pairwise (fun a b => a.1 ≠ b.1) ∧ WFd d
  | _ => True
def WFs : List JT → Prop
  | [] => True
  | x :: r => x.WF ∧ WFs r
def WFd : List (Text × JT) → Prop
  | [] => True
  | (_, x) :: r => x.WF ∧ WFd r
end

/-- the text of a value begins with neither white space nor a closing bracket -/
theorem dump_head (x : JT) (h : x.WF) (lvl : Nat) : ∃ c r, dump lvl x = c :: r ∧ isWs c = false ∧ c ≠ ']' ∧ c ≠ bom := by
  match x, h with
  | .null, _ => exact ⟨_, _, by rw [dump], by decide, by decide, by decide⟩
  | .bool true, _ => exact ⟨_, _, by rw [dump], by decide, by decide, by decide⟩
  | .bool false, _ => exact ⟨_, _, by rw [dump], by decide, by decide, by decide⟩
  | .int i, _ =>
    obtain ⟨c, r, h1, h2⟩ := showInt_head i
    refine ⟨c, r, by rw [dump, h1], ?_, digit_ne h2 (by decide), digit_ne h2 (by decide)⟩
    unfold isWs
    have a := digit_ne (d := ' ') h2 (by decide)
    have b := digit_ne (d := '\t') h2 (by decide)
    have c1 := digit_ne (d := '\n') h2 (by decide)
    have d := digit_ne (d := '\r') h2 (by decide)
    simp [a, b, c1, d]
  | .float _, h => exact absurd h (by rw [JT.WF]; exact id)
  | .str s, _ => exact ⟨_, _, by rw [dump], by decide, by decide, by decide⟩
  | .arr [], _ => exact ⟨_, _, by rw [dump], by decide, by decide, by decide⟩
  | .arr (_ :: _), _ => exact ⟨_, _, by rw [dump], by decide, by decide, by decide⟩
  | .obj [], _ => exact ⟨_, _, by rw [dump], by decide, by decide, by decide⟩
  | .obj ((_, _) :: _), _ => exact ⟨_, _, by rw [dump], by decide, by decide, by decide⟩

theorem stop_nl (lvl : Nat) (t : Text) : Stop (nl lvl ++ t) := ⟨by decide, by decide, by decide, by decide⟩
theorem stop_comma (t : Text) : Stop (',' :: t) := ⟨by decide, by decide, by decide, by decide⟩

theorem stop_items (lvl k : Nat) (l : List JT) (t : Text) : Stop (dumpItems lvl l ++ (nl k ++ t)) := by
  cases l with
  | nil => rw [dumpItems]; exact stop_nl k t
  | cons x r => rw [dumpItems]; exact stop_comma _

theorem stop_members (lvl k : Nat) (l : List (Text × JT)) (t : Text) : Stop (dumpMembers lvl l ++ (nl k ++ t)) := by
  match l with
  | [] => rw [dumpMembers]; exact stop_nl k t
  | (_, _) :: _ => rw [dumpMembers]; exact stop_comma _

theorem lit_read (n : Nat) (w r : Text) (v : JT) (c : Char) (w' : Text) (hw : w = c :: w') (hc : c ≠ '"' ∧ c ≠ '{' ∧ c ≠ '[')
    (hp : plain (w ++ r) = some (v, r)) : value (n + 1) (w ++ r) = some (v, r) := by
  subst hw
  rw [List.cons_append] at hp ⊢
  rw [value_plain _ _ _ hc, hp]

theorem isPrefixOf_append (w r : Text) : w.isPrefixOf (w ++ r) = true := List.isPrefixOf_iff_prefix.mpr (List.prefix_append w r)

mutual
/-- reading what was written, whatever follows -/
theorem value_dump : ∀ (x : JT) (_ : x.WF) (lvl n : Nat) (r : Text) (_ : Stop r) (_ : 2 * (dump lvl x ++ r).length + 1 ≤ n),
    value n (dump lvl x ++ r) = some (x, r)
  | .null, _, lvl, n, r, _, hn => by
    obtain ⟨n, rfl⟩ : ∃ n', n = n' + 1 := ⟨n - 1, by omega⟩
    rw [dump]
    exact lit_read n _ r _ 'n' _ rfl (by decide) (by unfold plain; rw [if_pos (isPrefixOf_append _ _)]; rfl)
  | .bool true, _, lvl, n, r, _, hn => by
    obtain ⟨n, rfl⟩ : ∃ n', n = n' + 1 := ⟨n - 1, by omega⟩
    rw [dump]
    exact lit_read n _ r _ 't' _ rfl (by decide) (by
      unfold plain; rw [if_neg (by simp [List.isPrefixOf]), if_pos (isPrefixOf_append _ _)]; rfl)
  | .bool false, _, lvl, n, r, _, hn => by
    obtain ⟨n, rfl⟩ : ∃ n', n = n' + 1 := ⟨n - 1, by omega⟩
    rw [dump]
    exact lit_read n _ r _ 'f' _ rfl (by decide) (by
      unfold plain; rw [if_neg (by simp [List.isPrefixOf]), if_neg (by simp [List.isPrefixOf]), if_pos (isPrefixOf_append _ _)]; rfl)
  | .int i, _, lvl, n, r, hr, hn => by
    obtain ⟨n, rfl⟩ : ∃ n', n = n' + 1 := ⟨n - 1, by omega⟩
    rw [dump]
    obtain ⟨c, q, h1, h2⟩ := showInt_head i
    exact lit_read n _ r _ c q h1 ⟨digit_ne h2 (by decide), digit_ne h2 (by decide), digit_ne h2 (by decide)⟩ (plain_int i r hr)
  | .float _, h, _, _, _, _, _ => absurd h (by rw [JT.WF]; exact id)
  | .str s, _, lvl, n, r, _, hn => by
    obtain ⟨n, rfl⟩ : ∃ n', n = n' + 1 := ⟨n - 1, by omega⟩
    rw [dump, List.cons_append, value_str, scan_escText]
    rfl
  | .arr [], _, lvl, n, r, _, hn => by
    obtain ⟨n, rfl⟩ : ∃ n', n = n' + 1 := ⟨n - 1, by omega⟩
    rw [dump, List.cons_append, value_arr, List.cons_append, skip_cons _ _ (by decide)]
    rfl
  | .arr (x :: l), h, lvl, n, r, hr, hn => by
    obtain ⟨n, rfl⟩ : ∃ n', n = n' + 1 := ⟨n - 1, by omega⟩
    rw [JT.WF] at h
    rw [dump] at hn ⊢
    obtain ⟨c, q, h1, h2, h3, _⟩ := dump_head x h.1 (lvl + 1)
    have hi := items_dump x l h.1 h.2 (lvl + 1) lvl n r (by
      simp only [List.length_append, List.length_cons, nl] at hn ⊢; omega)
    rw [List.cons_append, value_arr, List.append_assoc, skip_nl]
    rw [List.append_assoc, h1] at hi ⊢
    rw [List.append_assoc, List.cons_append] at hi ⊢
    rw [skip_cons _ _ h2]
    simp only
    rw [if_neg h3, hi]
    rfl
  | .obj [], _, lvl, n, r, _, hn => by
    obtain ⟨n, rfl⟩ : ∃ n', n = n' + 1 := ⟨n - 1, by omega⟩
    rw [dump, List.cons_append, value_obj, List.cons_append, skip_cons _ _ (by decide)]
    rfl
  | .obj ((k, x) :: l), h, lvl, n, r, hr, hn => by
    obtain ⟨n, rfl⟩ : ∃ n', n = n' + 1 := ⟨n - 1, by omega⟩
    rw [JT.WF, WFd] at h
    rw [dump] at hn ⊢
    have hi := members_dump k x l h.2.1 h.2.2 (lvl + 1) lvl n r (by
      simp only [List.length_append, List.length_cons, nl] at hn ⊢; omega)
    rw [List.cons_append, value_obj, List.append_assoc, skip_nl, List.cons_append, skip_cons _ _ (by decide)]
    simp only
    rw [if_neg (by decide), if_pos trivial, hi]
    simp only [Option.map_some]
    rw [dictOf_id _ h.1]
termination_by x => sizeOf x
/-- the items of a list, from the first on -/
theorem items_dump : ∀ (x : JT) (l : List JT) (_ : x.WF) (_ : WFs l) (lvl k n : Nat) (r : Text)
    (_ : 2 * ((dump lvl x ++ dumpItems lvl l ++ (nl k ++ [']'])) ++ r).length + 2 ≤ n),
    items n ((dump lvl x ++ dumpItems lvl l ++ (nl k ++ [']'])) ++ r) = some (x :: l, r)
  | x, [], hx, _, lvl, k, n, r, hn => by
    obtain ⟨n, rfl⟩ : ∃ n', n = n' + 1 := ⟨n - 1, by omega⟩
    rw [items.eq_def]
    simp only
    rw [dumpItems, List.append_nil, List.append_assoc] at hn ⊢
    rw [value_dump x hx lvl n _ (by rw [List.append_assoc]; exact stop_nl k _) (by omega)]
    simp only
    rw [List.append_assoc, skip_nl, List.cons_append, skip_cons _ _ (by decide)]
    rfl
  | x, y :: l, hx, hl, lvl, k, n, r, hn => by
    obtain ⟨n, rfl⟩ : ∃ n', n = n' + 1 := ⟨n - 1, by omega⟩
    rw [WFs] at hl
    rw [items.eq_def]
    simp only
    have hi := items_dump y l hl.1 hl.2 lvl k n r (by
      rw [dumpItems] at hn
      simp only [List.length_append, List.length_cons, nl] at hn ⊢; omega)
    obtain ⟨c, q, h1, h2, h3, _⟩ := dump_head y hl.1 lvl
    rw [List.append_assoc, List.append_assoc] at hn ⊢
    rw [value_dump x hx lvl n _ (by rw [List.append_assoc]; exact stop_items lvl k _ _) (by omega)]
    simp only
    rw [dumpItems, List.cons_append, skip_cons _ _ (by decide)]
    simp only
    rw [if_neg (by decide), if_pos trivial]
    rw [List.append_assoc, skip_nl]
    rw [List.append_assoc, List.append_assoc] at hi
    rw [h1] at hi ⊢
    simp only [List.cons_append, List.append_assoc] at hi ⊢
    rw [skip_cons _ _ h2, hi]
    rfl
termination_by x l => sizeOf x + sizeOf l
/-- the items of a dict, from the first on -/
theorem members_dump : ∀ (key : Text) (x : JT) (l : List (Text × JT)) (_ : x.WF) (_ : WFd l) (lvl k n : Nat) (r : Text)
    (_ : 2 * ((escText key ++ (':' :: ' ' :: (dump lvl x ++ dumpMembers lvl l ++ (nl k ++ ['}'])))) ++ r).length + 2 ≤ n),
    members n ((escText key ++ (':' :: ' ' :: (dump lvl x ++ dumpMembers lvl l ++ (nl k ++ ['}'])))) ++ r) = some ((key, x) :: l, r)
  | key, x, [], hx, _, lvl, k, n, r, hn => by
    obtain ⟨n, rfl⟩ : ∃ n', n = n' + 1 := ⟨n - 1, by omega⟩
    obtain ⟨c, q, h1, h2, _⟩ := dump_head x hx lvl
    have hv := value_dump x hx lvl n (nl k ++ '}' :: r) (stop_nl k _) (by
      simp only [List.length_append, List.length_cons, dumpMembers] at hn ⊢
      simp only [List.length_nil] at hn
      omega)
    rw [members.eq_def]
    simp only
    rw [List.append_assoc, scan_escText, List.cons_append, List.cons_append]
    simp only
    rw [skip_cons _ _ (by decide)]
    simp only
    rw [if_pos trivial]
    rw [dumpMembers, List.append_nil]
    have es : ∀ t, skip (' ' :: t) = skip t := fun t => by simp [skip, List.dropWhile, isWs]
    rw [es, List.append_assoc, List.append_assoc]
    rw [h1] at hv ⊢
    simp only [List.cons_append, List.nil_append] at hv ⊢
    rw [skip_cons _ _ h2, hv]
    simp only
    rw [skip_nl, skip_cons _ _ (by decide)]
    rfl
  | key, x, (k2, y) :: l, hx, hl, lvl, k, n, r, hn => by
    obtain ⟨n, rfl⟩ : ∃ n', n = n' + 1 := ⟨n - 1, by omega⟩
    rw [WFd] at hl
    obtain ⟨c, q, h1, h2, _⟩ := dump_head x hx lvl
    rw [dumpMembers] at hn
    have hm := members_dump k2 y l hl.1 hl.2 lvl k n r (by
      simp only [List.length_append, List.length_cons, nl] at hn ⊢; omega)
    have hv := value_dump x hx lvl n (',' :: (nl lvl ++ ('"' :: (escText k2 ++ (':' :: ' ' :: (dump lvl y ++ dumpMembers lvl l)))) ++
        (nl k ++ ['}'])) ++ r) (stop_comma _) (by
      simp only [List.length_append, List.length_cons] at hn ⊢
      omega)
    rw [members.eq_def]
    simp only
    rw [List.append_assoc, scan_escText, List.cons_append, List.cons_append]
    simp only
    rw [skip_cons _ _ (by decide)]
    simp only
    rw [if_pos trivial]
    have es : ∀ t, skip (' ' :: t) = skip t := fun t => by simp [skip, List.dropWhile, isWs]
    rw [es, dumpMembers]
    rw [h1] at hv ⊢
    simp only [List.cons_append, List.append_assoc, List.nil_append] at hv hm ⊢
    rw [skip_cons _ _ h2, hv]
    simp only
    rw [skip_cons _ _ (by decide)]
    simp only
    rw [if_neg (by decide), if_pos trivial, skip_nl, skip_cons _ _ (by decide)]
    simp only
    rw [if_pos trivial, hm]
    rfl
termination_by _ x l => sizeOf x + sizeOf l
end

theorem loads_dump (x : JT) (h : x.WF) : loads (dump 0 x) = some x := by
  obtain ⟨c, r, h1, h2, h3, h4⟩ := dump_head x h 0
  have hv := value_dump x h 0 (2 * (dump 0 x).length + 1) [] trivial (by simp)
  rw [List.append_nil] at hv
  unfold loads
  rw [if_neg (by rw [h1]; simpa using h4)]
  have : skip (dump 0 x) = dump 0 x := by rw [h1]; exact skip_cons _ _ h2
  rw [this, hv]
  rfl

end V8.JsonText
