import Verif.Module
import Verif.CodeLemmas
import Verif.BraceRound
namespace V8.Module
open V8.Enc V8.Brace

/-! ### directives -/

theorem comment_noline (a b : Text) (h : '\n' ∉ a) : comment (a ++ b) = a ++ comment b := by
  induction a with
  | nil => rfl
  | cons c a ih =>
    rw [List.cons_append, comment, if_neg (fun hc => h (by simp [hc.1])), ih (fun hm => h (by simp [hm]))]
    rfl

theorem prefix_comment (p t : Text) (h : '\n' ∉ p) : p <+: comment t ↔ p <+: t := by
  induction p generalizing t with
  | nil => simp
  | cons c p ih =>
    cases t with
    | nil => simp [comment]
    | cons d t =>
      rw [comment]
      by_cases hd : d = '\n' ∧ atDirective t = true
      · rw [if_pos hd, List.cons_prefix_cons, List.cons_prefix_cons, hd.1]
        constructor
        · rintro ⟨h1, -⟩; exact absurd (by simp [h1] : '\n' ∈ c :: p) h
        · rintro ⟨h1, -⟩; exact absurd (by simp [h1] : '\n' ∈ c :: p) h
      · rw [if_neg hd, List.cons_prefix_cons, List.cons_prefix_cons, ih t (fun hm => h (by simp [hm]))]

theorem marker_noline : '\n' ∉ marker := by decide

/-- the marker followed by one of the three characters -/
theorem atMarked_iff (t : Text) : atMarked t = true ↔ ∃ c, (c = '#' ∨ c = '|' ∨ c = '&') ∧ (marker ++ [c]) <+: t := by
  unfold atMarked
  rw [Bool.and_eq_true, Code.starts_iff]
  constructor
  · rintro ⟨⟨r, rfl⟩, h2⟩
    rw [List.drop_left] at h2
    cases r with
    | nil => cases h2
    | cons c r =>
      refine ⟨c, by simpa [or_assoc] using h2, ⟨r, by simp⟩⟩
  · rintro ⟨c, hc, ⟨r, rfl⟩⟩
    refine ⟨⟨[c] ++ r, by simp⟩, ?_⟩
    rw [List.append_assoc, List.drop_left]
    simpa [or_assoc] using hc

theorem atMarked_comment (t : Text) : atMarked (comment t) = atMarked t := by
  rw [Bool.eq_iff_iff, atMarked_iff, atMarked_iff]
  constructor <;> (
    rintro ⟨c, hc, hp⟩
    have hn : '\n' ∉ marker ++ [c] := by
      rw [List.mem_append, not_or]
      refine ⟨marker_noline, ?_⟩
      rcases hc with rfl | rfl | rfl <;> decide)
  · exact ⟨c, hc, (prefix_comment _ _ hn).mp hp⟩
  · exact ⟨c, hc, (prefix_comment _ _ hn).mpr hp⟩

/-- a directive begins with `#` or `&` -/
theorem atDirective_head {t : Text} (h : atDirective t = true) : ∃ c r, t = c :: r ∧ (c = '#' ∨ c = '&') := by
  unfold atDirective at h
  rw [List.any_eq_true] at h
  obtain ⟨d, hd, hs⟩ := h
  rw [Code.starts_iff] at hs
  obtain ⟨r, rfl⟩ := hs
  have : d.head? = some '#' ∨ d.head? = some '&' := by
    revert d
    decide
  cases d with
  | nil => simp at this
  | cons c d => exact ⟨c, d ++ r, rfl, by simpa using this⟩

theorem atMarked_directive {t : Text} (h : atDirective t = true) : atMarked t = false := by
  obtain ⟨c, r, rfl, hc⟩ := atDirective_head h
  unfold atMarked
  have : Str.starts marker (c :: r) = false := by
    rw [Bool.eq_false_iff, ne_eq, Code.starts_iff]
    rintro ⟨z, hz⟩
    have : (marker ++ z).head? = some '/' := rfl
    rw [hz] at this
    simp only [List.head?_cons, Option.some.injEq] at this
    subst this
    revert hc
    decide
  rw [this, Bool.false_and]

/-- commenting the directives out does not change the text without markers -/
theorem uncomment_comment (s : Text) : uncomment (comment s) = uncomment s := by
  match s with
  | [] => rfl
  | c :: t =>
    rw [comment]
    by_cases h : c = '\n' ∧ atDirective t = true
    · obtain ⟨rfl, hd⟩ := h
      have hm : atMarked (marker ++ comment t) = true := by
        rw [atMarked_iff]
        obtain ⟨d, r, rfl, hc⟩ := atDirective_head hd
        have hp : [d] <+: comment (d :: r) := (prefix_comment [d] (d :: r) (by rcases hc with rfl | rfl <;> decide)).mpr ⟨r, rfl⟩
        obtain ⟨z, hz⟩ := hp
        exact ⟨d, hc.elim .inl (fun h => .inr (.inr h)), ⟨z, by rw [← hz]; simp⟩⟩
      have hl : uncomment ('\n' :: (marker ++ comment t)) = '\n' :: uncomment (comment t) := by
        rw [uncomment, if_pos ⟨rfl, hm⟩, List.drop_left]
      rw [if_pos ⟨rfl, hd⟩, hl, uncomment, if_neg (by rw [atMarked_directive hd]; simp), uncomment_comment t]
    · rw [if_neg h, uncomment, uncomment, atMarked_comment]
      by_cases hm : c = '\n' ∧ atMarked t = true
      · rw [if_pos hm, if_pos hm]
        obtain ⟨x, hx, ⟨r, hr⟩⟩ := (atMarked_iff t).mp hm.2
        have e : t = marker ++ ([x] ++ r) := by rw [← hr, List.append_assoc]
        have : t.length = marker.length + ([x] ++ r).length := by rw [e, List.length_append]
        rw [e, comment_noline _ _ marker_noline, List.drop_left, List.drop_left, uncomment_comment ([x] ++ r)]
      · rw [if_neg hm, if_neg hm, uncomment_comment t]
termination_by s.length
decreasing_by all_goals simp_all <;> omega

theorem uncomment_length (s : Text) : (uncomment s).length ≤ s.length := by
  match s with
  | [] => simp [uncomment]
  | c :: t =>
    rw [uncomment]
    by_cases h : c = '\n' ∧ atMarked t = true
    · rw [if_pos h]
      have := uncomment_length (t.drop marker.length)
      rw [List.length_drop] at this
      simp only [List.length_cons]
      omega
    · rw [if_neg h]
      have := uncomment_length t
      simp only [List.length_cons]; omega
termination_by s.length
decreasing_by all_goals simp; try omega

/-- text without a commented directive: no line begins with the marker and one of the three characters (the first line apart) -/
def Clean (s : Text) : Prop := ∀ c, c = '#' ∨ c = '|' ∨ c = '&' → ¬ ('\n' :: marker ++ [c]) <:+: s

theorem uncomment_eq_iff (s : Text) : uncomment s = s ↔ Clean s := by
  induction s with
  | nil =>
    simp only [uncomment, true_iff]
    intro c _ hi
    have := hi.length_le
    simp at this
  | cons c t ih =>
    rw [uncomment]
    by_cases h : c = '\n' ∧ atMarked t = true
    · rw [if_pos h]
      obtain ⟨rfl, hm⟩ := h
      obtain ⟨x, hx, hp⟩ := (atMarked_iff t).mp hm
      constructor
      · intro he
        exfalso
        have h1 := uncomment_length (t.drop marker.length)
        have h2 := congrArg List.length he
        have h3 := hp.length_le
        have h4 : marker.length = 12 := by decide
        rw [List.length_drop] at h1
        simp only [List.length_cons, List.length_append, List.length_nil] at h2 h3
        omega
      · intro hcl
        exact absurd (((List.cons_prefix_cons).mpr ⟨rfl, hp⟩).isInfix) (hcl x hx)
    · rw [if_neg h]
      simp only [List.cons.injEq, true_and]
      rw [ih]
      constructor
      · intro hcl x hx hi
        rcases List.infix_cons_iff.mp hi with hi | hi
        · rw [List.cons_append, List.cons_prefix_cons] at hi
          exact h ⟨hi.1.symm, (atMarked_iff t).mpr ⟨x, hx, hi.2⟩⟩
        · exact hcl x hx hi
      · intro hcl x hx hi
        exact hcl x hx (hi.trans (List.suffix_cons c t).isInfix)

theorem prefix_uncomment (p t : Text) (h : '\n' ∉ p) : p <+: uncomment t ↔ p <+: t := by
  induction p generalizing t with
  | nil => simp
  | cons c p ih =>
    cases t with
    | nil => simp [uncomment]
    | cons d t =>
      rw [uncomment]
      by_cases hd : d = '\n' ∧ atMarked t = true
      · rw [if_pos hd, List.cons_prefix_cons, List.cons_prefix_cons, hd.1]
        constructor
        · rintro ⟨h1, -⟩; exact absurd (by simp [h1] : '\n' ∈ c :: p) h
        · rintro ⟨h1, -⟩; exact absurd (by simp [h1] : '\n' ∈ c :: p) h
      · rw [if_neg hd, List.cons_prefix_cons, List.cons_prefix_cons, ih t (fun hm => h (by simp [hm]))]

theorem directive_noline : ∀ d ∈ directives, '\n' ∉ d := by decide

theorem atDirective_uncomment (t : Text) : atDirective (uncomment t) = atDirective t := by
  unfold atDirective
  rw [Bool.eq_iff_iff, List.any_eq_true, List.any_eq_true]
  constructor <;> (rintro ⟨d, hd, hs⟩; refine ⟨d, hd, ?_⟩; rw [Code.starts_iff] at hs ⊢)
  · exact (prefix_uncomment d t (directive_noline d hd)).mp hs
  · exact (prefix_uncomment d t (directive_noline d hd)).mpr hs

/-- every line of the text but the first (`t` is the text from the beginning of the line on) begins with no bare directive, and
where it begins with a marked one this is one of the four directives -/
def StoredForm (s : Text) : Prop :=
  ∀ t, ('\n' :: t) <:+ s → atDirective t = false ∧ (atMarked t = true → atDirective (t.drop marker.length) = true)

theorem storedForm_cons (c : Char) (t : Text) : StoredForm (c :: t) ↔
    (c = '\n' → atDirective t = false ∧ (atMarked t = true → atDirective (t.drop marker.length) = true)) ∧ StoredForm t := by
  unfold StoredForm
  constructor
  · intro h
    refine ⟨?_, fun u hu => h u (hu.trans (List.suffix_cons c t))⟩
    rintro rfl
    exact h t (List.suffix_refl _)
  · rintro ⟨h1, h2⟩ u hu
    rcases List.suffix_cons_iff.mp hu with he | hu
    · injection he with he1 he2
      subst he2
      exact h1 he1.symm
    · exact h2 u hu

theorem storedForm_append (a t : Text) (ha : '\n' ∉ a) : StoredForm (a ++ t) ↔ StoredForm t := by
  induction a with
  | nil => rfl
  | cons c a ih =>
    rw [List.cons_append, storedForm_cons, ih (fun hm => ha (by simp [hm]))]
    constructor
    · exact fun h => h.2
    · exact fun h => ⟨fun hc => absurd (by simp [hc]) ha, h⟩

theorem head_comment_uncomment (r : Text) (c : Char) (hc : c ≠ '\n') (h : [c] <+: r) : [c] <+: comment (uncomment r) := by
  have hn : '\n' ∉ [c] := by simpa using Ne.symm hc
  exact (prefix_comment _ _ hn).mpr ((prefix_uncomment _ _ hn).mpr h)

theorem comment_uncomment_iff (s : Text) : comment (uncomment s) = s ↔ StoredForm s := by
  match s with
  | [] =>
    simp only [uncomment, comment, true_iff]
    intro t ht
    have := ht.length_le
    simp at this
  | c :: t =>
    rw [uncomment]
    by_cases h : c = '\n' ∧ atMarked t = true
    · obtain ⟨rfl, hm⟩ := h
      rw [if_pos ⟨rfl, hm⟩, comment, atDirective_uncomment]
      obtain ⟨x, hx, ⟨r, hr⟩⟩ := (atMarked_iff t).mp hm
      have e : t = marker ++ ([x] ++ r) := by rw [← hr, List.append_assoc]
      have hlen : t.length = marker.length + ([x] ++ r).length := by rw [e, List.length_append]
      have hd0 : atDirective t = false := by
        cases hd : atDirective t with
        | false => rfl
        | true => rw [atMarked_directive hd] at hm; cases hm
      have hdrop : t.drop marker.length = [x] ++ r := by rw [e, List.drop_left]
      rw [storedForm_cons, hdrop]
      have ih := comment_uncomment_iff ([x] ++ r)
      have e2 : StoredForm t ↔ StoredForm ([x] ++ r) := by rw [e]; exact storedForm_append _ _ marker_noline
      rw [e2, ← ih]
      by_cases hd : atDirective ([x] ++ r) = true
      · rw [if_pos ⟨rfl, hd⟩]
        constructor
        · intro he
          refine ⟨fun _ => ⟨hd0, fun _ => hd⟩, ?_⟩
          injection he with _ he
          exact List.append_cancel_left (he.trans e)
        · rintro ⟨_, he⟩
          rw [he, ← e]
      · rw [if_neg (fun hh => hd hh.2)]
        constructor
        · intro he
          injection he with _ he
          exfalso
          have hp := head_comment_uncomment ([x] ++ r) x (by rcases hx with rfl | rfl | rfl <;> decide) ⟨r, rfl⟩
          rw [he, e] at hp
          have hx2 : x = '/' := (List.cons_prefix_cons.mp (show x :: [] <+: '/' :: _ from hp)).1
          subst hx2
          revert hx
          decide
        · rintro ⟨h1, _⟩
          exact absurd ((h1 rfl).2 hm) hd
    · rw [if_neg h, comment, atDirective_uncomment, storedForm_cons, ← comment_uncomment_iff t]
      by_cases hd : c = '\n' ∧ atDirective t = true
      · obtain ⟨rfl, hd⟩ := hd
        rw [if_pos ⟨rfl, hd⟩]
        constructor
        · intro he
          injection he with _ he
          exfalso
          obtain ⟨x, r, rfl, hx⟩ := atDirective_head hd
          have hx2 : x = '/' := by
            have : (marker ++ comment (uncomment (x :: r))).head? = some '/' := rfl
            rw [he] at this
            simpa using this
          subst hx2
          revert hx
          decide
        · rintro ⟨h1, _⟩
          rw [(h1 rfl).1] at hd
          cases hd
      · rw [if_neg hd]
        simp only [List.cons.injEq, true_and]
        constructor
        · intro he
          refine ⟨?_, he⟩
          intro hc
          refine ⟨?_, fun hm => absurd ⟨hc, hm⟩ h⟩
          cases hb : atDirective t with
          | false => rfl
          | true => exact absurd ⟨hc, hb⟩ hd
        · exact fun hh => hh.2
termination_by s.length
decreasing_by all_goals simp_all <;> omega

theorem atMarked_uncomment (t : Text) : atMarked (uncomment t) = atMarked t := by
  rw [Bool.eq_iff_iff, atMarked_iff, atMarked_iff]
  constructor <;> (
    rintro ⟨c, hc, hp⟩
    have hn : '\n' ∉ marker ++ [c] := by
      rw [List.mem_append, not_or]
      refine ⟨marker_noline, ?_⟩
      rcases hc with rfl | rfl | rfl <;> decide)
  · exact ⟨c, hc, (prefix_uncomment _ _ hn).mp hp⟩
  · exact ⟨c, hc, (prefix_uncomment _ _ hn).mpr hp⟩

theorem uncomment_idem (s : Text) : uncomment (uncomment s) = uncomment s := by
  match s with
  | [] => simp [uncomment]
  | c :: t =>
    by_cases h : c = '\n' ∧ atMarked t = true
    · obtain ⟨x, hx, ⟨r, hr⟩⟩ := (atMarked_iff t).mp h.2
      have e : t = marker ++ ([x] ++ r) := by rw [← hr, List.append_assoc]
      have hlen : t.length = marker.length + ([x] ++ r).length := by rw [e, List.length_append]
      have e1 : uncomment (c :: t) = '\n' :: uncomment ([x] ++ r) := by
        rw [uncomment, if_pos h, e, List.drop_left]
      have hm : atMarked ([x] ++ r) = false := by
        cases hb : atMarked ([x] ++ r) with
        | false => rfl
        | true =>
          obtain ⟨y, _, hp⟩ := (atMarked_iff _).mp hb
          have : ('/' :: (marker.drop 1 ++ [y])) <+: x :: r := hp
          have := (List.cons_prefix_cons.mp this).1
          subst this
          revert hx
          decide
      rw [e1, uncomment, atMarked_uncomment, if_neg (by rw [hm]; simp), uncomment_idem ([x] ++ r)]
    · have e1 : uncomment (c :: t) = c :: uncomment t := by rw [uncomment, if_neg h]
      rw [e1, uncomment, atMarked_uncomment, if_neg h, uncomment_idem t]
termination_by s.length
decreasing_by all_goals simp_all <;> omega

/-! ### quotes -/

theorem strDecode_strEncode (s : Text) : strDecode (strEncode s) = s := by
  simp [strDecode, strEncode]

theorem undouble_double (s : Text) : undouble (double s) = s := by
  induction s with
  | nil => rfl
  | cons c s ih =>
    have e : double (c :: s) = (if c = '"' then ['"', '"'] else [c]) ++ double s := by simp [double]
    rw [e]
    by_cases h : c = '"'
    · rw [if_pos h, h]
      simp [undouble, ih]
    · rw [if_neg h, List.singleton_append, undouble.eq_def]
      simp [h, ih]

/-! ### the code slot of a form -/

theorem lastLevel_list (a : List Val) (r : List Val) : lastLevel (a ++ [.list r]) = lastLevel r := by
  rw [lastLevel]
  have h : (a ++ [Val.list r]).getLast? = some (.list r) := List.getLast?_concat
  split
  · rename_i h'; rw [h] at h'; cases h'
  · rename_i r' h'; rw [h] at h'; cases h'; rfl
  · rename_i v h1 h'; rw [h] at h'; cases h'; exact absurd rfl (h1 _)

theorem lastLevel_other (a : List Val) (v : Val) (hv : v.isList = false) : lastLevel (a ++ [v]) = some (a ++ [v]) := by
  rw [lastLevel]
  have h : (a ++ [v]).getLast? = some v := List.getLast?_concat
  split
  · rename_i h'; rw [h] at h'; cases h'
  · rename_i r' h'; rw [h] at h'; cases h'; cases hv
  · rfl

theorem setLastLevel_list (a r new : List Val) :
    setLastLevel (a ++ [.list r]) new = a ++ [.list (setLastLevel r new)] := by
  rw [setLastLevel]
  have h : (a ++ [Val.list r]).getLast? = some (.list r) := List.getLast?_concat
  split
  · rename_i r' h'; rw [h] at h'; cases h'; rw [List.dropLast_concat]
  · rename_i h1; exact absurd h (h1 r)

theorem setLastLevel_other (a new : List Val) (v : Val) (hv : v.isList = false) : setLastLevel (a ++ [v]) new = new := by
  rw [setLastLevel]
  have h : (a ++ [v]).getLast? = some v := List.getLast?_concat
  split
  · rename_i r' h'; rw [h] at h'; cases h'; cases hv
  · rfl

/-- facts about replacing the last level by a list that looks the same from outside -/
theorem setLastLevel_spec (l last : List Val) (h : lastLevel l = some last) :
    (∃ a v, last = a ++ [v] ∧ v.isList = false) ∧
    ∀ new : List Val, new.getLast? = last.getLast? → new.length = last.length → new[0]? = last[0]? →
      lastLevel (setLastLevel l new) = some new ∧ (setLastLevel l new).length = l.length ∧
      (∀ ss, tokIn (setLastLevel l new)[0]? ss = tokIn l[0]? ss) ∧ setLastLevel (setLastLevel l new) last = l := by
  rcases List.eq_nil_or_concat l with rfl | ⟨a, v, rfl⟩
  · rw [lastLevel] at h; cases h
  · rw [List.concat_eq_append] at *
    cases hv : v.isList with
    | false =>
      rw [lastLevel_other a v hv] at h
      cases h
      refine ⟨⟨a, v, rfl, hv⟩, ?_⟩
      intro new h1 h2 h3
      rw [List.getLast?_concat] at h1
      obtain ⟨b, rfl⟩ : ∃ b, new = b ++ [v] := List.getLast?_eq_some_iff.mp h1
      rw [setLastLevel_other a _ v hv, setLastLevel_other b _ v hv, lastLevel_other b v hv]
      exact ⟨rfl, h2, fun ss => by rw [h3], rfl⟩
    | true =>
      cases v with
      | none => cases hv
      | str e => cases hv
      | list r =>
        rw [lastLevel_list] at h
        have hlt : sizeOf r < sizeOf (a ++ [Val.list r]) := by
          have := List.sizeOf_lt_of_mem (show Val.list r ∈ a ++ [Val.list r] by simp)
          simp only [Val.list.sizeOf_spec] at this
          omega
        obtain ⟨h0, h1⟩ := setLastLevel_spec r last h
        refine ⟨h0, ?_⟩
        intro new n1 n2 n3
        obtain ⟨g1, g2, g3, g4⟩ := h1 new n1 n2 n3
        rw [setLastLevel_list, setLastLevel_list, lastLevel_list, g4]
        refine ⟨g1, by simp, ?_, rfl⟩
        intro ss
        cases a with
        | nil => rfl
        | cons x a => rfl
termination_by sizeOf l
decreasing_by subst_vars; rw [List.concat_eq_append]; exact hlt

/-- the roots of a form as one list, and back -/
theorem roots_back (form : List (List Val)) :
    (form.map Val.list).map unroot = form := by
  induction form with
  | nil => rfl
  | cons r form ih => rw [List.map_cons, List.map_cons, ih]; rfl

theorem setLastLevel_roots (form : List (List Val)) (last new : List Val) (h : lastLevel (form.map Val.list) = some last) :
    ∃ form' : List (List Val), setLastLevel (form.map Val.list) new = form'.map Val.list := by
  rcases List.eq_nil_or_concat form with rfl | ⟨a, r, rfl⟩
  · rw [List.map_nil, lastLevel] at h; cases h
  · rw [List.concat_eq_append, List.map_append]
    exact ⟨a ++ [setLastLevel r new], by
      rw [List.map_cons, List.map_nil, setLastLevel_list, List.map_append]; rfl⟩

theorem first_set (l : List Val) (v : Val) (h : 10 < l.length) : (l.set (l.length - 8) v)[0]? = l[0]? := by
  rw [List.getElem?_set_ne (by omega)]

theorem fromEnd_set (l : List Val) (v : Val) (k : Nat) (hk : 0 < k) (hk2 : k < 8) (h : 10 < l.length) :
    fromEnd (l.set (l.length - 8) v) k = fromEnd l k := by
  unfold fromEnd
  rw [List.length_set, if_pos (by omega), if_pos (by omega), List.getElem?_set_ne (by omega)]

theorem last_set (l : List Val) (v : Val) (h : 10 < l.length) : (l.set (l.length - 8) v).getLast? = l.getLast? := by
  rw [List.getLast?_eq_getElem?, List.getLast?_eq_getElem?, List.length_set, List.getElem?_set_ne (by omega)]

theorem fromEnd8_set (l : List Val) (v : Val) (h : 10 < l.length) : fromEnd (l.set (l.length - 8) v) 8 = some v := by
  unfold fromEnd
  rw [List.length_set, if_pos (by omega), List.getElem?_set_self (by omega)]

theorem set_back (l : List Val) (v w : Val) (k : Nat) (h : l[k]? = some w) : (l.set k v).set k w = l := by
  rw [List.set_set]
  have hk := (List.getElem?_eq_some_iff.mp h).1
  rw [← (List.getElem?_eq_some_iff.mp h).2, List.set_getElem_self]

/-- taking the code out and putting it back restores the form -/
theorem getset_getset (form : List (List Val)) (m code : Text) (form' : List (List Val)) (h : getset form m = .ok (code, form')) :
    ∃ m', getset form' code = .ok (m', form) ∧ (m' = m ∨ (code = [] ∧ form' = form ∧ ∀ x, getset form x = .ok ([], form))) := by
  cases form with
  | nil => rw [getset] at h; cases h
  | cons root roots =>
    rw [getset] at h
    by_cases h1 : 2 < root.length ∧ tokIn root[0]? [['4'], ['3'], ['2']] = true
    · rw [if_pos h1] at h
      cases hs : (root[2]? : Option Val) with
      | none => rw [hs] at h; cases h
      | some v =>
        cases v with
        | none => rw [hs] at h; cases h
        | list l => rw [hs] at h; cases h
        | str c =>
          rw [hs] at h
          cases h
          refine ⟨m, ?_, .inl rfl⟩
          rw [getset, if_pos (by rw [List.length_set, List.getElem?_set_ne (by omega)]; exact h1),
            List.getElem?_set_self (by omega)]
          simp only
          rw [set_back _ _ _ _ hs]
    · rw [if_neg h1] at h
      cases hl : lastLevel ((root :: roots).map Val.list) with
      | none => rw [hl] at h; cases h
      | some last =>
        rw [hl] at h
        simp only at h
        by_cases h2 : root.length < 10 ∧ tokIn last[0]? [['4', '9'], ['4']] = true
        · rw [if_pos h2] at h
          cases h
          have hall : ∀ x, getset (root :: roots) x = .ok ([], root :: roots) := by
            intro x
            rw [getset, if_neg h1, hl]
            simp only
            rw [if_pos h2]
          exact ⟨[], hall _, .inr ⟨rfl, rfl, hall⟩⟩
        · rw [if_neg h2] at h
          by_cases h3 : 10 < last.length ∧ tokIn last[0]? [['2', '2'], ['1']] = true ∧ tokIn (fromEnd last 1) [['0']] = true ∧
              tokIn (fromEnd last 2) [['0']] = true
          · rw [if_pos h3] at h
            cases hs : fromEnd last 8 with
            | none => rw [hs] at h; cases h
            | some v =>
              cases v with
              | none => rw [hs] at h; cases h
              | list l => rw [hs] at h; cases h
              | str c =>
                rw [hs] at h
                cases h
                refine ⟨m, ?_, .inl rfl⟩
                have hs8 : last[last.length - 8]? = some (.str code) := by
                  unfold fromEnd at hs
                  rwa [if_pos (by omega)] at hs
                obtain ⟨form', hf⟩ := setLastLevel_roots _ _ (last.set (last.length - 8) (.str m)) hl
                rw [hf, roots_back]
                obtain ⟨g1, g2, g3, g4⟩ := (setLastLevel_spec _ _ hl).2 (last.set (last.length - 8) (.str m))
                  (last_set _ _ h3.1) (List.length_set) (first_set _ _ h3.1)
                rw [hf] at g1 g2 g3 g4
                cases form' with
                | nil => simp at g2
                | cons root' roots' =>
                  -- the first root looks the same
                  have hroot : root'.length = root.length ∧ ∀ ss, tokIn root'[0]? ss = tokIn root[0]? ss := by
                    cases roots with
                    | nil =>
                      rw [List.map_cons, List.map_nil] at hf hl
                      have e1 := setLastLevel_list [] root (last.set (last.length - 8) (.str m))
                      rw [List.nil_append] at e1
                      rw [e1] at hf
                      have e2 := lastLevel_list [] root
                      rw [List.nil_append] at e2
                      rw [e2] at hl
                      injection hf with hf _
                      injection hf with hf
                      rw [← hf]
                      obtain ⟨q1, q2, q3, q4⟩ := (setLastLevel_spec _ _ hl).2 (last.set (last.length - 8) (.str m))
                        (last_set _ _ h3.1) (List.length_set) (first_set _ _ h3.1)
                      exact ⟨q2, q3⟩
                    | cons r2 roots2 =>
                      rcases List.eq_nil_or_concat (r2 :: roots2) with h0 | ⟨b, z, hb⟩
                      · cases h0
                      · rw [List.concat_eq_append] at hb
                        rw [hb, List.map_cons, List.map_append, ← List.cons_append] at hf
                        rw [List.map_cons, List.map_nil, setLastLevel_list, List.cons_append, List.map_cons] at hf
                        injection hf with hf _
                        injection hf with hf
                        rw [hf]
                        exact ⟨rfl, fun _ => rfl⟩
                  rw [getset, if_neg (by rw [hroot.1, hroot.2]; exact h1), g1]
                  simp only
                  rw [if_neg (by rw [hroot.1, first_set _ _ h3.1]; exact h2),
                    if_pos (by
                      rw [List.length_set, first_set _ _ h3.1, fromEnd_set _ _ 1 (by omega) (by omega) h3.1,
                        fromEnd_set _ _ 2 (by omega) (by omega) h3.1]; exact h3), fromEnd8_set _ _ h3.1]
                  simp only
                  rw [List.length_set, set_back _ _ _ _ hs8, g4, roots_back]
          · rw [if_neg h3] at h
            cases h
            have hall : ∀ x, getset (root :: roots) x = .ok ([], root :: roots) := by
              intro x
              rw [getset, if_neg h1, hl]
              simp only
              rw [if_neg h2, if_neg h3]
            exact ⟨[], hall _, .inr ⟨rfl, rfl, hall⟩⟩

end V8.Module

namespace V8.Module
open V8.Enc V8.Brace

/-! ### module files -/

theorem universal_nocr (t : Text) : '\r' ∉ universal t := by
  fun_induction universal t with
  | case1 => simp
  | case2 t ih => simp [ih]
  | case3 t h ih => simp [ih]
  | case4 c t h1 h2 ih =>
    rw [List.mem_cons, not_or]
    exact ⟨fun h => h2 h.symm, ih⟩

theorem universal_osWrite (win : Bool) (s : Text) (h : '\r' ∉ s) : universal (osWrite win s) = s := by
  have := io_clean win s [] h
  rw [List.append_nil] at this
  rw [io] at this
  rw [this]
  cases win <;> simp [io, osWrite, universal]

theorem comment_nocr (s : Text) (h : '\r' ∉ s) : '\r' ∉ comment s := by
  induction s with
  | nil => simp [comment]
  | cons c t ih =>
    rw [List.mem_cons, not_or] at h
    rw [comment]
    split
    · rw [List.mem_cons, List.mem_append, not_or, not_or]
      exact ⟨by decide, by decide, ih h.2⟩
    · rw [List.mem_cons, not_or]
      exact ⟨h.1, ih h.2⟩

theorem uncomment_sub (s : Text) : ∀ c ∈ uncomment s, c ∈ s := by
  match s with
  | [] => simp [uncomment]
  | d :: t =>
    rw [uncomment]
    intro c hc
    by_cases h : d = '\n' ∧ atMarked t = true
    · rw [if_pos h, List.mem_cons] at hc
      rcases hc with rfl | hc
      · rw [h.1]; simp
      · exact List.mem_cons_of_mem _ (List.mem_of_mem_drop (uncomment_sub _ c hc))
    · rw [if_neg h, List.mem_cons] at hc
      rcases hc with rfl | hc
      · simp
      · exact List.mem_cons_of_mem _ (uncomment_sub t c hc)
termination_by s.length
decreasing_by all_goals simp; try omega

theorem comment_sub (s : Text) : ∀ c ∈ comment s, c ∈ s ∨ c ∈ marker := by
  induction s with
  | nil => simp [comment]
  | cons d t ih =>
    intro c hc
    rw [comment] at hc
    by_cases h : d = '\n' ∧ atDirective t = true
    · rw [if_pos h, List.mem_cons, List.mem_append] at hc
      rcases hc with rfl | hc | hc
      · rw [h.1]; simp
      · exact .inr hc
      · exact (ih c hc).imp_left (List.mem_cons_of_mem _)
    · rw [if_neg h, List.mem_cons] at hc
      rcases hc with rfl | hc
      · simp
      · exact (ih c hc).imp_left (List.mem_cons_of_mem _)

theorem universal_sub (s : Text) : ∀ c ∈ universal s, c ∈ s ∨ c = '\n' := by
  intro c
  fun_induction universal s with
  | case1 => simp
  | case2 t ih => simp only [List.mem_cons]; rintro (h | h); exact .inr h; rcases ih h with h | h <;> simp [h]
  | case3 t h ih => simp only [List.mem_cons]; rintro (h | h); exact .inr h; rcases ih h with h | h <;> simp [h]
  | case4 d t h1 h2 ih => simp only [List.mem_cons]; rintro (h | h); exact .inl (.inl h); rcases ih h with h | h <;> simp [h]

theorem osWrite_sub (win : Bool) (s : Text) : ∀ c ∈ osWrite win s, c ∈ s ∨ c = '\r' ∨ c = '\n' := by
  intro c hc
  unfold osWrite at hc
  split at hc
  · rw [List.mem_flatMap] at hc
    obtain ⟨d, hd, hc⟩ := hc
    split at hc
    · simp only [List.mem_cons, List.not_mem_nil, or_false] at hc
      exact .inr hc
    · simp only [List.mem_singleton] at hc
      subst hc; exact .inl hd
  · exact .inl hc

theorem cpBytes_some (t : Text) (h : ∀ c ∈ t, (cpByte c).isSome = true) : ∃ b, cpBytes t = some b := by
  induction t with
  | nil => exact ⟨[], rfl⟩
  | cons c t ih =>
    obtain ⟨b, hb⟩ := ih (fun x hx => h x (by simp [hx]))
    obtain ⟨x, hx⟩ := Option.isSome_iff_exists.mp (h c (by simp))
    exact ⟨x :: b, by rw [cpBytes, hx, hb]⟩

theorem cpBytes_mem {t : Text} {b : Bytes} (h : cpBytes t = some b) : ∀ c ∈ t, (cpByte c).isSome = true := by
  induction t generalizing b with
  | nil => simp
  | cons c t ih =>
    rw [cpBytes] at h
    cases hc : cpByte c with
    | none => rw [hc] at h; cases h
    | some x =>
      cases ht : cpBytes t with
      | none => rw [hc, ht] at h; cases h
      | some y =>
        intro d hd
        rcases List.mem_cons.mp hd with rfl | hd
        · rw [hc]; rfl
        · exact ih ht d hd

theorem cp_ascii : ∀ c ∈ '\r' :: '\n' :: marker, (cpByte c).isSome = true := by decide +kernel

/-- what becomes of the decoded text of a module from reading it in the configuration to writing it back: line ends as on this
platform, directives commented out -/
def renewed (win cd : Bool) (t : Text) : Text :=
  osWrite win (if cd then comment (uncomment (universal t)) else universal t)

theorem head_universal (t : Text) : (universal t).head? = some bom ↔ t.head? = some bom := by
  fun_cases universal t
  · rfl
  · simp [bom]
  · simp [bom]
  · rfl

theorem head_comment (t : Text) : (comment t).head? = t.head? := by
  cases t with
  | nil => rfl
  | cons c t =>
    rw [comment]
    split
    · rename_i h; rw [h.1]; rfl
    · rfl

theorem head_uncomment (t : Text) : (uncomment t).head? = t.head? := by
  cases t with
  | nil => simp [uncomment]
  | cons c t =>
    rw [uncomment]
    split
    · rename_i h; rw [h.1]; rfl
    · rfl

theorem osWrite_bom (win : Bool) (t : Text) : osWrite win (bom :: t) = bom :: osWrite win t := by
  cases win with
  | false => rfl
  | true =>
    have : bom ≠ '\n' := by decide
    simp [osWrite, this]

theorem osWrite_nil (win : Bool) : osWrite win [] = [] := by cases win <;> rfl

/-- the text handed over between reading the module and the source -/
def handed (cd : Bool) (t : Text) : Text := if cd then uncomment (universal t) else universal t

theorem handed_nocr (cd : Bool) (t : Text) : '\r' ∉ handed cd t := by
  unfold handed
  split
  · exact fun h => universal_nocr t (uncomment_sub _ _ h)
  · exact universal_nocr t

theorem handed_head (cd : Bool) (t : Text) : (handed cd t).head? = some bom ↔ t.head? = some bom := by
  unfold handed
  split
  · rw [head_uncomment, head_universal]
  · exact head_universal t

theorem osWrite_head (win : Bool) (t : Text) : (osWrite win t).head? = some bom ↔ t.head? = some bom := by
  cases t with
  | nil => rw [osWrite_nil]
  | cons c r =>
    cases win with
    | false => rfl
    | true =>
      by_cases hn : c = '\n'
      · subst hn
        simp [osWrite, bom]
      · simp [osWrite, hn]

/-- the source text read back -/
theorem read_source (win : Bool) (s : Text) (h : '\r' ∉ s) :
    (utf8SigText (utf8 (osWrite win s))).map (fun t => Code.text (universal t)) = some (.text (dropBom s)) := by
  rw [utf8SigText_utf8, Option.map_some]
  by_cases hb : s.head? = some bom
  · cases s with
    | nil => cases hb
    | cons c r =>
      simp only [List.head?_cons, Option.some.injEq] at hb
      subst hb
      rw [osWrite_bom]
      simp only [dropBom, List.head?_cons, if_true, List.drop_succ_cons, List.drop_zero]
      rw [universal_osWrite win r (fun hm => h (by simp [hm]))]
  · rw [dropBom, if_neg (fun hh => hb ((osWrite_head win s).mp hh)), dropBom, if_neg hb, universal_osWrite win s h]

end V8.Module

namespace V8.Module
open V8.Enc V8.Brace

theorem renewed_eq (win cd : Bool) (t : Text) : renewed win cd t = osWrite win (if cd then comment (handed cd t) else handed cd t) := by
  cases cd <;> rfl

/-- the sources of one module, from the bytes of its file -/
noncomputable def srcOf (win cd : Bool) (info : Option (List (List Val))) (b : Bytes) : Src :=
  let r := readRaw cd (some b)
  let w := writeDecode win r.1 r.2
  ⟨some info, r.2, w.1, w.2⟩

theorem readRaw_utf8 (cd : Bool) (t : Text) :
    readRaw cd (some (utf8 t)) = (some (.text (handed cd t)), if t.head? = some bom then .utf8sig else .utf8) := by
  rw [readRaw, utf8Text_utf8]
  simp only
  have : bomName (utf8 t) = if t.head? = some bom then .utf8sig else .utf8 := by
    rw [bomName, detectByBom_utf8]
    by_cases h : t.head? = some bom
    · rw [if_pos h, if_pos h]
    · rw [if_neg h, if_neg h]
  rw [this]
  cases cd <;> rfl

theorem build_text (win : Bool) (info) (enc : EncName) (s : Text) (hr : '\r' ∉ s) (he : enc ≠ .bin) :
    readCode ⟨some info, enc, (writeDecode win (some (.text s)) enc).1, (writeDecode win (some (.text s)) enc).2⟩ =
      some (.text (dropBom s)) := by
  unfold readCode
  rw [if_neg he]
  by_cases h : s = []
  · subst h; rfl
  · simp only [writeDecode, if_neg h, if_neg he, writeText]
    exact read_source win s hr

theorem module_utf8 (w win cd : Bool) (info) (t : Text) :
    ∃ code, readCode (srcOf w cd info (utf8 t)) = some code ∧
      writeCode win cd (srcOf w cd info (utf8 t)).enc code = some (utf8 (renewed win cd t)) := by
  unfold srcOf
  rw [readRaw_utf8]
  refine ⟨.text (dropBom (handed cd t)), build_text w info _ _ (handed_nocr cd t) (by split <;> simp), ?_⟩
  simp only [writeCode]
  rw [renewed_eq]
  by_cases hb : t.head? = some bom
  · rw [if_pos hb, if_neg (by simp)]
    have hh := (handed_head cd t).mpr hb
    cases hs : handed cd t with
    | nil => rw [hs] at hh; cases hh
    | cons c r =>
      rw [hs] at hh
      simp only [List.head?_cons, Option.some.injEq] at hh
      subst hh
      simp only [dropBom, List.head?_cons, if_true, List.drop_succ_cons, List.drop_zero, writeText, utf8Sig]
      have hco : comment (bom :: r) = bom :: comment r := by
        rw [comment, if_neg (fun h => absurd h.1 (by decide))]
      cases cd
      · simp only [Bool.false_eq_true, if_false]
        rw [osWrite_bom, utf8_cons, utf8_bom]
      · simp only [if_true]
        rw [hco, osWrite_bom, utf8_cons bom, utf8_bom]
  · rw [if_neg hb, if_neg (by simp), dropBom, if_neg (fun h => hb ((handed_head cd t).mp h))]
    rfl

theorem module_cp (w win cd : Bool) (info) (b : Bytes) (t : Text) (h8 : utf8Text b = none) (ht : cpText b = some t) :
    ∃ code b', readCode (srcOf w cd info b) = some code ∧ cpBytes (renewed win cd t) = some b' ∧
      writeCode win cd (srcOf w cd info b).enc code = some b' := by
  have e : readRaw cd (some b) = (some (.text (handed cd t)), .cp1251) := by
    rw [readRaw, h8, ht]
    cases cd <;> rfl
  obtain ⟨hb, hbom⟩ := cpBytes_cpText ht
  unfold srcOf
  rw [e]
  have hsub : ∀ c ∈ handed cd t, c ∈ t ∨ c = '\n' := by
    intro c hc
    unfold handed at hc
    split at hc
    · exact universal_sub t c (uncomment_sub _ c hc)
    · exact universal_sub t c hc
  have hd : dropBom (handed cd t) = handed cd t := by
    rw [dropBom, if_neg]
    rw [handed_head]
    intro hh
    cases t with
    | nil => cases hh
    | cons c r => simp only [List.head?_cons, Option.some.injEq] at hh; subst hh; simp at hbom
  have hall : ∀ c ∈ renewed win cd t, (cpByte c).isSome = true := by
    intro c hc
    have asc := cp_ascii
    have base : ∀ c ∈ handed cd t, (cpByte c).isSome = true := by
      intro c hc
      rcases hsub c hc with hc | rfl
      · exact cpBytes_mem hb c hc
      · exact asc _ (by simp)
    rw [renewed_eq] at hc
    rcases osWrite_sub _ _ c hc with hc | rfl | rfl
    · split at hc
      · rcases comment_sub _ c hc with hc | hc
        · exact base c hc
        · exact asc _ (by simp [hc])
      · exact base c hc
    · exact asc _ (by simp)
    · exact asc _ (by simp)
  obtain ⟨b', hb'⟩ := cpBytes_some _ hall
  refine ⟨.text (handed cd t), b', ?_, hb', ?_⟩
  · have := build_text w info .cp1251 _ (handed_nocr cd t) (by simp)
    rw [hd] at this
    exact this
  · simp only [writeCode]
    rw [if_neg (by simp), writeText, ← renewed_eq, hb']

theorem module_bin (w win cd : Bool) (info) (b : Bytes) (h8 : utf8Text b = none) (ht : cpText b = none) :
    readCode (srcOf w cd info b) = some (.bytes b) ∧ writeCode win cd (srcOf w cd info b).enc (.bytes b) = some b := by
  have e : readRaw cd (some b) = (some (.bytes b), .bin) := by rw [readRaw, h8, ht]
  have hne : b ≠ [] := by
    rintro rfl
    cases ht
  unfold srcOf
  rw [e]
  simp only [writeDecode, if_neg hne]
  exact ⟨rfl, rfl⟩

theorem build_file (w win cd : Bool) (b b' : Bytes) (code : Code) (h1 : readCode (srcOf w cd none b) = some code)
    (h2 : writeCode win cd (srcOf w cd none b).enc code = some b') :
    buildModule win cd (extractModule w cd (.file b)) = some (.file b') := by
  have e : extractModule w cd (.file b) = srcOf w cd none b := rfl
  rw [e, buildModule, show (srcOf w cd none b).info = some none from rfl]
  simp only [h1, h2]

theorem build_dir (w win cd : Bool) (info) (b b' : Bytes) (im bi) (code : Code) (h1 : readCode (srcOf w cd (some info) b) = some code)
    (h2 : writeCode win cd (srcOf w cd (some info) b).enc code = some b') :
    buildModule win cd (extractModule w cd (.dir info (some b) im bi)) = some (.dir info (some b') none none) := by
  have e : extractModule w cd (.dir info (some b) im bi) = srcOf w cd (some info) b := rfl
  rw [e, buildModule, show (srcOf w cd (some info) b).info = some (some info) from rfl]
  simp only [h1, h2]

/-- what the code is does not depend on the new value -/
theorem getset_any (form : List (List Val)) (a b c : Text) (f : List (List Val)) (h : getset form a = .ok (c, f)) :
    ∃ f', getset form b = .ok (c, f') := by
  cases form with
  | nil => rw [getset] at h; cases h
  | cons root roots =>
    rw [getset] at h ⊢
    by_cases h1 : 2 < root.length ∧ tokIn root[0]? [['4'], ['3'], ['2']] = true
    · rw [if_pos h1] at h ⊢
      cases hs : (root[2]? : Option Val) with
      | none => rw [hs] at h; cases h
      | some v =>
        cases v with
        | none => rw [hs] at h; cases h
        | list l => rw [hs] at h; cases h
        | str x => rw [hs] at h; cases h; exact ⟨_, rfl⟩
    · rw [if_neg h1] at h ⊢
      cases hl : lastLevel ((root :: roots).map Val.list) with
      | none => rw [hl] at h; cases h
      | some last =>
        rw [hl] at h
        simp only at h ⊢
        by_cases h2 : root.length < 10 ∧ tokIn last[0]? [['4', '9'], ['4']] = true
        · rw [if_pos h2] at h ⊢
          cases h; exact ⟨_, rfl⟩
        · rw [if_neg h2] at h ⊢
          by_cases h3 : 10 < last.length ∧ tokIn last[0]? [['2', '2'], ['1']] = true ∧ tokIn (fromEnd last 1) [['0']] = true ∧
              tokIn (fromEnd last 2) [['0']] = true
          · rw [if_pos h3] at h ⊢
            cases hs : fromEnd last 8 with
            | none => rw [hs] at h; cases h
            | some v =>
              cases v with
              | none => rw [hs] at h; cases h
              | list l => rw [hs] at h; cases h
              | str x => rw [hs] at h; cases h; exact ⟨_, rfl⟩
          · rw [if_neg h3] at h ⊢
            cases h; exact ⟨_, rfl⟩

end V8.Module
