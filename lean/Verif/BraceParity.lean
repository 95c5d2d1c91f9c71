import Verif.BraceLemmas
/- The parser tracks the parity of quotes: invariant used by C14. -/
namespace V8.Brace

/-- characters of a raw token -/
def Clean (w : Text) : Prop := ∀ c ∈ w, c ≠ ',' ∧ c ≠ '}' ∧ c ≠ '"' ∧ c ≠ '\n'

/-- invariant of the parser after the text `u` -/
def Inv (s : PS) (u : Text) : Prop :=
  match s.mode with
  | .param => u.count '"' % 2 = 0 ∧ (s.prevBrace = true → s.cur = none ∨ s.cur = some []) ∧
      (∀ w, s.cur = some w → Clean w ∧ (w <:+ u ∨ w ++ ['\n'] <:+ u))
  | .beginStr => u.count '"' % 2 = 1
  | .multi => u.count '"' % 2 = 1
  | .endStr => u.count '"' % 2 = 0 ∧ s.prevBrace = false
  | .b64 => False
  | .text => True

/-- inside a line the current token is a suffix of the consumed text -/
def InvIn (s : PS) (u : Text) : Prop :=
  match s.mode with
  | .param => u.count '"' % 2 = 0 ∧ (s.prevBrace = true → s.cur = none ∨ s.cur = some []) ∧
      (∀ w, s.cur = some w → Clean w ∧ w <:+ u)
  | .beginStr => u.count '"' % 2 = 1
  | .endStr => u.count '"' % 2 = 0 ∧ s.prevBrace = false
  | _ => False

theorem InvIn.inv {s u} (h : InvIn s u) : Inv s u := by
  unfold InvIn at h
  unfold Inv
  split at h
  · rename_i hm; rw [hm]; exact ⟨h.1, h.2.1, fun w hw => ⟨(h.2.2 w hw).1, .inl (h.2.2 w hw).2⟩⟩
  · rename_i hm; rw [hm]; exact h
  · rename_i hm; rw [hm]; exact h
  · exact h.elim

theorem endValue_inv {s s' : PS} {u : Text} (hpar : u.count '"' % 2 = 0)
    (hp : s.prevBrace = true → s.cur = none ∨ s.cur = some []) (h : s.endValue = .ok s') : InvIn s' u := by
  unfold PS.endValue at h
  split at h
  · rename_i hb
    injection h with h; subst h
    refine ⟨hpar, by simp, ?_⟩
    intro w hw
    rcases hp hb with h | h
    · simp_all
    · simp only [h, Option.some.injEq] at hw; subst hw; exact ⟨by simp [Clean], by simp⟩
  · split at h
    · cases h
    · injection h with h; subst h
      refine ⟨hpar, by simp, ?_⟩
      intro w hw
      simp only [Option.some.injEq] at hw; subst hw; exact ⟨by simp [Clean], by simp⟩

theorem endObject_inv {s s' : PS} {u : Text} (hpar : u.count '"' % 2 = 0) 
    (hp : s.prevBrace = true → s.cur = none ∨ s.cur = some []) (h : s.endObject = .ok s') : InvIn s' u := by
  unfold PS.endObject at h
  split at h
  · cases h
  · rename_i s1 h1
    have hm : s1.mode = .param := by
      unfold PS.endValue at h1
      split at h1
      · injection h1 with h1; subst h1; rfl
      · split at h1
        · cases h1
        · injection h1 with h1; subst h1; rfl
    split at h <;> (injection h with h; subst h; unfold InvIn; simp [hm, hpar])

theorem count_snoc (u : Text) (c : Char) (h : c ≠ '"') : (u ++ [c]).count '"' = u.count '"' := by
  simp [List.count_append, List.count_cons, h]

theorem decodeObject_inv (l : Text) : ∀ (s s' : PS) (p : Option Char) (u : Text), InvIn s u →
    (∀ a b, l = a ++ '\n' :: b → b = []) → decodeObject s p l = .ok s' → Inv s' (u ++ l) := by
  induction l with
  | nil => intro s s' p u hi _ h; injection h with h; subst h; simpa using hi.inv
  | cons c rest ih =>
    intro s s' p u hi hnl h
    have hnl' : ∀ a b, rest = a ++ '\n' :: b → b = [] := fun a b e => hnl (c :: a) b (by rw [e]; rfl)
    have hcons : u ++ c :: rest = (u ++ [c]) ++ rest := by simp
    rw [decodeObject] at h
    split at h
    · -- param
      rename_i hm
      unfold InvIn at hi
      rw [hm] at hi
      obtain ⟨h1, h2, h3⟩ := hi
      split at h
      · rename_i hc
        split at h
        · cases h
        · rename_i s1 hs1
          rw [hcons]
          exact ih _ _ _ _ (endValue_inv (by rw [count_snoc _ _ (by rw [hc]; decide)]; exact h1) h2 hs1) hnl' h
      split at h
      · rename_i _ hc
        split at h
        · cases h
        · rename_i s1 hs1
          rw [hcons]
          exact ih _ _ _ _ (endObject_inv (by rw [count_snoc _ _ (by rw [hc]; decide)]; exact h1) h2 hs1) hnl' h
      split at h
      · rename_i _ _ hc
        subst hc
        split at h
        · rename_i hr
          injection h with h; subst h
          rw [hr.2]
          unfold Inv PS.add
          simp [List.count_append, List.count_cons]
          omega
        · rw [hcons]
          refine ih _ _ _ _ ?_ hnl' h
          unfold InvIn PS.add
          simp [List.count_append]
          omega
      split at h
      · rename_i _ _ _ hc
        injection h with h; subst h
        subst hc
        have := hnl [] rest rfl
        subst this
        unfold Inv
        rw [hm]
        refine ⟨by rw [count_snoc _ _ (by decide)]; exact h1, h2, ?_⟩
        intro w hw
        refine ⟨(h3 w hw).1, .inr ?_⟩
        obtain ⟨a, ha⟩ := (h3 w hw).2
        exact ⟨a, by rw [← ha]; simp⟩
      · rename_i q1 q2 q3 q4
        rw [hcons]
        refine ih _ _ _ _ ?_ hnl' h
        unfold InvIn PS.add
        rw [show ({ s with cur := some (s.cur.getD [] ++ [c]), prevBrace := decide ([c] = ['}']) } : PS).mode = .param from hm]
        refine ⟨by rw [count_snoc _ _ q3]; exact h1, ?_, ?_⟩
        · simp [q2]
        · intro w hw
          simp only [Option.some.injEq] at hw
          subst hw
          cases hcur : s.cur with
          | none =>
            refine ⟨?_, ?_⟩
            · intro d hd; simp at hd; subst hd; exact ⟨q1, q2, q3, q4⟩
            · simp [List.suffix_append]
          | some v =>
            obtain ⟨hv1, hv2⟩ := h3 v hcur
            refine ⟨?_, ?_⟩
            · intro d hd
              simp only [Option.getD_some, List.mem_append, List.mem_singleton] at hd
              rcases hd with hd | hd
              · exact hv1 d hd
              · subst hd; exact ⟨q1, q2, q3, q4⟩
            · obtain ⟨a, ha⟩ := hv2
              exact ⟨a, by rw [← ha]; simp⟩
    · -- beginStr
      rename_i hm
      unfold InvIn at hi
      rw [hm] at hi
      rw [hcons]
      split at h
      · rename_i hc
        subst hc
        refine ih _ _ _ _ ?_ hnl' h
        unfold InvIn PS.add
        simp [List.count_append]
        simp only at hi
        omega
      · rename_i hc
        refine ih _ _ _ _ ?_ hnl' h
        unfold InvIn PS.add
        rw [show ({ s with cur := some (s.cur.getD [] ++ [c]), prevBrace := decide ([c] = ['}']) } : PS).mode = .beginStr from hm]
        simp only
        rw [count_snoc _ _ hc]; exact hi
    · -- endStr
      rename_i hm
      unfold InvIn at hi
      rw [hm] at hi
      obtain ⟨h1, h2⟩ := hi
      rw [hcons]
      split at h
      · rename_i hc
        subst hc
        refine ih _ _ _ _ ?_ hnl' h
        unfold InvIn PS.add
        simp [List.count_append]
        omega
      split at h
      · rename_i _ hc
        split at h
        · cases h
        · rename_i s1 hs1
          exact ih _ _ _ _ (endValue_inv (by rw [count_snoc _ _ (by rw [hc]; decide)]; exact h1) (by simp [h2]) hs1) hnl' h
      split at h
      · rename_i _ _ hc
        split at h
        · cases h
        · rename_i s1 hs1
          exact ih _ _ _ _ (endObject_inv (by rw [count_snoc _ _ (by rw [hc]; decide)]; exact h1) (by simp [h2]) hs1) hnl' h
      · rename_i q1 q2 q3
        refine ih _ _ _ _ ?_ hnl' h
        unfold InvIn PS.add
        rw [show ({ s with cur := some (s.cur.getD [] ++ [c]), prevBrace := decide ([c] = ['}']) } : PS).mode = .endStr from hm]
        exact ⟨by rw [count_snoc _ _ q1]; exact h1, by simp [q3]⟩
    · cases h

theorem lines_flatten (t : Text) : (lines t).flatten = t := by
  induction t with
  | nil => rfl
  | cons c t ih =>
    rw [lines]
    split
    · rename_i hc; subst hc; simp [ih]
    · split
      · rename_i hl; rw [lines_eq_nil t hl]; rfl
      · rename_i l ls hl; rw [hl] at ih; simp at ih ⊢; exact ih

/-- every line but the last one ends in a line feed, and line feeds are nowhere else -/
theorem lines_shape (t : Text) : (∀ l ∈ lines t, ∀ a b, l = a ++ '\n' :: b → b = []) ∧
    (∀ l l2 ls pre, lines t = pre ++ l :: l2 :: ls → ∃ a, l = a ++ ['\n']) := by
  induction t with
  | nil => simp [lines]
  | cons c t ih =>
    rw [lines]
    split
    · constructor
      · intro l hl a b e
        rcases List.mem_cons.mp hl with rfl | hl
        · cases a with
          | nil => simp at e; exact e
          | cons d a => simp at e
        · exact ih.1 l hl a b e
      · intro l l2 ls pre e
        cases pre with
        | nil => simp only [List.nil_append, List.cons.injEq] at e; exact ⟨[], by rw [← e.1]; rfl⟩
        | cons q pre => simp only [List.cons_append, List.cons.injEq] at e; exact ih.2 l l2 ls pre e.2
    · rename_i hc
      split
      · rename_i hl
        constructor
        · intro l hl a b e
          simp only [List.mem_singleton] at hl
          subst hl
          cases a with
          | nil => simp at e; exact absurd e.1 hc
          | cons d a => simp at e
        · intro l l2 ls pre e
          cases pre with
          | nil => simp at e
          | cons q pre => simp at e
      · rename_i m ms hl
        rw [hl] at ih
        constructor
        · intro l hl a b e
          rcases List.mem_cons.mp hl with rfl | hl
          · cases a with
            | nil => simp at e; exact absurd e.1 hc
            | cons d a => simp only [List.cons_append, List.cons.injEq] at e; exact ih.1 m (by simp) a b e.2
          · exact ih.1 l (by simp [hl]) a b e
        · intro l l2 ls pre e
          cases pre with
          | nil =>
            simp only [List.nil_append, List.cons.injEq] at e
            obtain ⟨a, ha⟩ := ih.2 m l2 ls [] (by rw [e.2]; rfl)
            exact ⟨c :: a, by rw [← e.1, ha]; rfl⟩
          | cons q pre =>
            simp only [List.cons_append, List.cons.injEq] at e
            exact ih.2 l l2 ls (m :: pre) (by rw [e.2]; rfl)

/-- no embedded binary and no 64-character token at the end of a line -/
def NoBinary (t : Text) : Prop :=
  ¬ "{#base64".toList <:+: t ∧ ∀ w, w.length = 64 → Clean w → ¬ (w ++ ['\n']) <:+: t

theorem not_cur64 (s : PS) (u : Text) (hi : Inv s u) (hm : s.mode = .param) (hu : NoBinary u)
    (hend : u = [] ∨ ∃ a, u = a ++ ['\n']) : cur64 s = false := by
  unfold Inv at hi
  rw [hm] at hi
  unfold cur64
  split
  · rename_i v hv
    obtain ⟨h1, h2⟩ := hi.2.2 v hv
    by_cases hlen : v.length = 64
    · exfalso
      rcases h2 with h2 | h2
      · rcases hend with h | ⟨a, h⟩
        · subst h; simp at h2; subst h2; simp at hlen
        · subst h
          obtain ⟨x, hx⟩ := h2
          have hne : v ≠ [] := by rintro rfl; simp at hlen
          rw [← List.dropLast_concat_getLast hne, ← List.append_assoc] at hx
          have := (List.append_inj' hx rfl).2
          simp only [List.cons.injEq, and_true] at this
          exact (h1 _ (List.getLast_mem hne)).2.2.2 this
      · exact hu.2 v hlen h1 h2.isInfix
    · simpa using hlen
  · rfl

theorem decodeLine_inv (s s' : PS) (u l : Text) (hi : Inv s u) (hnb : NoBinary (u ++ l))
    (hend : u = [] ∨ ∃ a, u = a ++ ['\n']) (hnl : ∀ a b, l = a ++ '\n' :: b → b = [])
    (h : decodeLine s l = .ok s') : Inv s' (u ++ l) := by
  have hnu : NoBinary u := by
    refine ⟨fun h => hnb.1 (h.trans (List.prefix_append _ _).isInfix), fun w h1 h2 h3 => hnb.2 w h1 h2 (h3.trans (List.prefix_append _ _).isInfix)⟩
  unfold decodeLine at h
  split at h
  · rename_i hm
    have hc64 := not_cur64 s u hi hm hnu hend
    unfold Inv at hi
    rw [hm] at hi
    obtain ⟨h1, h2, h3⟩ := hi
    unfold lineParam at h
    split at h
    · cases h
    · rename_i c rest
      have hnl' : ∀ a b, rest = a ++ '\n' :: b → b = [] := fun a b e => hnl (c :: a) b (by rw [e]; rfl)
      have hcons : u ++ c :: rest = (u ++ [c]) ++ rest := by simp
      split at h
      · rename_i hc
        subst hc
        unfold openBrace at h
        simp only at h
        split at h
        · rename_i hpre
          exfalso
          apply hnb.1
          rw [List.isPrefixOf_iff_prefix] at hpre
          obtain ⟨x, hx⟩ := hpre
          refine ⟨u, x, ?_⟩
          rw [← hx]
          simp
        · rw [hcons]
          refine decodeObject_inv _ _ _ _ _ ?_ hnl' h
          unfold InvIn
          rw [show ({ s with stack := [] :: s.stack, cur := some [] } : PS).mode = .param from hm]
          refine ⟨by rw [count_snoc _ _ (by decide)]; exact h1, by simp, ?_⟩
          intro w hw
          simp only [Option.some.injEq] at hw; subst hw; exact ⟨by simp [Clean], by simp⟩
      split at h
      · rename_i hc
        split at h
        · cases h
        · rename_i s1 hs1
          rw [hcons]
          exact decodeObject_inv _ _ _ _ _ (endObject_inv (by rw [count_snoc _ _ (by rw [hc]; decide)]; exact h1) h2 hs1) hnl' h
      split at h
      · rename_i hc; rw [hc64] at hc; simp at hc
      split at h
      · rename_i hda
        split at h
        · rename_i hl
          injection h with h; subst h
          unfold Inv
          rw [hm, hl]
          refine ⟨by rw [count_snoc _ _ (by decide)]; exact h1, by simp [hda.2], by simp [hda.2]⟩
        · injection h with h; subst h; trivial
      split at h
      · injection h with h; subst h; trivial
      split at h
      · rename_i hc; rw [hc64] at hc; cases hc
      · cases h
  · rename_i hm
    unfold Inv at hi
    rw [hm] at hi
    refine decodeObject_inv _ _ _ _ _ ?_ hnl h
    unfold InvIn
    rw [hm]; exact hi
  · rename_i hm
    unfold Inv at hi
    rw [hm] at hi
    split at h
    · have h0 : InvIn { s with mode := .beginStr } u := hi
      exact decodeObject_inv _ _ _ _ _ h0 hnl h
    · rename_i hq
      split at h
      · cases h
      · injection h with h; subst h
        unfold Inv
        rw [show ∀ v : Text, ({ s with cur := some v } : PS).mode = .multi from fun _ => hm]
        simp only [List.count_append]
        unfold countQ at hq
        simp only at hi
        omega
  · cases h
  · rename_i hm
    unfold Inv at hi
    rw [hm] at hi
    exact hi.elim
  · rename_i hm
    injection h with h; subst h
    unfold Inv
    rw [hm]; trivial

theorem decodeLines_inv (ls : List Text) : ∀ (s s' : PS) (u : Text), Inv s u → NoBinary (u ++ ls.flatten) →
    (u = [] ∨ ∃ a, u = a ++ ['\n']) → (∀ l ∈ ls, ∀ a b, l = a ++ '\n' :: b → b = []) →
    (∀ l l2 r pre, ls = pre ++ l :: l2 :: r → ∃ a, l = a ++ ['\n']) →
    decodeLines s ls = .ok s' → Inv s' (u ++ ls.flatten) := by
  induction ls with
  | nil => intro s s' u hi _ _ _ _ h; injection h with h; subst h; simpa using hi
  | cons l ls ih =>
    intro s s' u hi hnb hend hnl hsh h
    rw [decodeLines] at h
    split at h
    · cases h
    · rename_i s1 hs1
      rw [List.flatten_cons, ← List.append_assoc] at hnb ⊢
      have hnl1 : NoBinary (u ++ l) :=
        ⟨fun h => hnb.1 (h.trans (List.prefix_append _ _).isInfix),
          fun w h1 h2 h3 => hnb.2 w h1 h2 (h3.trans (List.prefix_append _ _).isInfix)⟩
      have hi1 := decodeLine_inv s s1 u l hi hnl1 hend (hnl l (by simp)) hs1
      cases ls with
      | nil =>
        injection h with h; subst h; simpa using hi1
      | cons l2 r =>
        refine ih s1 s' (u ++ l) hi1 hnb ?_ (fun x hx => hnl x (by simp [hx])) ?_ h
        · obtain ⟨a, ha⟩ := hsh l l2 r [] rfl
          exact .inr ⟨u ++ a, by rw [ha]; simp⟩
        · intro x y z pre e
          exact hsh x y z (l :: pre) (by rw [e]; rfl)

theorem odd_quotes_error (t : Text) (hnb : NoBinary t) (hodd : t.count '"' % 2 = 1) : ∃ e, decodeFile t = .error e := by
  unfold decodeFile
  split
  · exact ⟨_, rfl⟩
  · rename_i s hs
    have hi := decodeLines_inv (lines t) PS.init s [] ⟨by simp, by simp [PS.init], by simp [PS.init]⟩
      (by simpa [lines_flatten] using hnb) (.inl rfl) (lines_shape t).1 (lines_shape t).2 hs
    rw [lines_flatten, List.nil_append] at hi
    split
    · rename_i hm
      unfold Inv at hi
      rw [hm] at hi
      have := hi.1
      omega
    · exact ⟨_, rfl⟩

end V8.Brace
