import Verif.BraceSpec
namespace V8.Brace

/-- rest of the parse from the middle of a line -/
def Run (s : PS) (p : Option Char) (t : Text) : Except BErr PS :=
  match lines t with
  | [] => .ok s
  | l :: ls => match decodeObject s p l with
    | .error e => .error e
    | .ok s => decodeLines s ls

/-- rest of the parse from the start of a line -/
def Txt (s : PS) (t : Text) : Except BErr PS := decodeLines s (lines t)

theorem run_nil (s : PS) (p) : Run s p [] = .ok s := rfl
theorem txt_nil (s : PS) : Txt s [] = .ok s := rfl

theorem lines_cons (c : Char) (t : Text) (h : c ≠ '\n') :
    lines (c :: t) = match lines t with
      | [] => [[c]]
      | l :: ls => (c :: l) :: ls := by
  rw [lines, if_neg h]; cases lines t <;> rfl

theorem lines_nl (t : Text) : lines ('\n' :: t) = ['\n'] :: lines t := by rw [lines, if_pos rfl]

theorem lines_eq_nil (t : Text) (h : lines t = []) : t = [] := by
  cases t with
  | nil => rfl
  | cons c t =>
    rw [lines] at h
    split at h
    · cases h
    · split at h <;> cases h

/-- a whole line followed by more text -/
theorem lines_append (a t : Text) (h : '\n' ∉ a) : lines (a ++ '\n' :: t) = (a ++ ['\n']) :: lines t := by
  induction a with
  | nil => exact lines_nl t
  | cons c a ih =>
    simp only [List.mem_cons, not_or] at h
    rw [List.cons_append, lines_cons _ _ (Ne.symm h.1), ih h.2]
    rfl

/-- the lines of `a ++ t` when the line of `a` goes on in `t` -/
theorem lines_prefix (a : Text) (l : Text) (ls : List Text) (t : Text) (h : '\n' ∉ a) (ht : lines t = l :: ls) :
    lines (a ++ t) = (a ++ l) :: ls := by
  induction a with
  | nil => exact ht
  | cons c a ih =>
    simp only [List.mem_cons, not_or] at h
    rw [List.cons_append, lines_cons _ _ (Ne.symm h.1), ih h.2]
    rfl

theorem lines_nonempty (t : Text) (h : t ≠ []) : ∃ l ls, lines t = l :: ls := by
  cases hl : lines t with
  | nil => exact absurd (lines_eq_nil t hl) h
  | cons l ls => exact ⟨l, ls, rfl⟩

theorem txt_lines (s : PS) (t l ls) (h : lines t = l :: ls) :
    Txt s t = match decodeLine s l with
      | .error e => .error e
      | .ok s => decodeLines s ls := by
  unfold Txt; rw [h]; rfl

theorem run_cons (s s' : PS) (p : Option Char) (c : Char) (t : Text) (h : c ≠ '\n')
    (hs : ∀ l, (l = ['\n'] → ∃ t', t = '\n' :: t') → decodeObject s p (c :: l) = decodeObject s' (some c) l) :
    Run s p (c :: t) = Run s' (some c) t := by
  unfold Run
  rw [lines_cons c t h]
  cases hl : lines t with
  | nil =>
    have := lines_eq_nil t hl
    subst this
    simp only
    rw [hs [] (by simp)]
    rfl
  | cons l ls =>
    simp only
    rw [hs l]
    rintro rfl
    cases t with
    | nil => simp [lines] at hl
    | cons d t =>
      by_cases hd : d = '\n'
      · exact ⟨t, by rw [hd]⟩
      · rw [lines_cons _ _ hd] at hl
        split at hl <;> simp at hl <;> first | exact (hd hl.1.1).elim | exact (hd hl.1).elim

theorem run_cons' (s s' : PS) (p : Option Char) (c : Char) (t : Text) (h : c ≠ '\n')
    (hs : ∀ l, decodeObject s p (c :: l) = decodeObject s' (some c) l) :
    Run s p (c :: t) = Run s' (some c) t := run_cons s s' p c t h (fun l _ => hs l)

/-- the previous character only matters before a quote -/
theorem run_prev (s : PS) (p : Option Char) (t : Text) (h : t.head? ≠ some '"') : Run s p t = Run s none t := by
  unfold Run
  cases hl : lines t with
  | nil => rfl
  | cons l ls =>
    simp only
    have : l.head? ≠ some '"' := by
      cases t with
      | nil => simp [lines] at hl
      | cons c t =>
        rw [lines] at hl
        split at hl
        · injection hl with h1 h2; subst h1; simp
        · split at hl
          · injection hl with h1 h2; subst h1; simpa using h
          · injection hl with h1 h2; subst h1; simpa using h
    have e : decodeObject s p l = decodeObject s none l := by
      cases l with
      | nil => rfl
      | cons c l =>
        simp only [List.head?_cons, ne_eq, Option.some.injEq] at this
        simp only [decodeObject, if_neg this]
    rw [e]

/-- an ordinary character while reading a parameter -/
theorem run_raw (s : PS) (p) (c : Char) (t : Text) (hm : s.mode = .param)
    (h : c ≠ ',' ∧ c ≠ '}' ∧ c ≠ '"' ∧ c ≠ '\n') :
    Run s p (c :: t) = Run { s with cur := some (s.cur.getD [] ++ [c]), prevBrace := false } (some c) t := by
  apply run_cons' _ _ _ _ _ h.2.2.2
  intro l
  simp only [decodeObject, hm, if_neg h.1, if_neg h.2.1, if_neg h.2.2.1, if_neg h.2.2.2, PS.add]
  congr 2
  simp [h.2.1]

theorem run_raws (s : PS) (p) (a t : Text) (hm : s.mode = .param) (hne : a ≠ [])
    (h : ∀ c ∈ a, c ≠ ',' ∧ c ≠ '}' ∧ c ≠ '"' ∧ c ≠ '\n') :
    ∃ p', Run s p (a ++ t) = Run { s with cur := some (s.cur.getD [] ++ a), prevBrace := false } p' t := by
  induction a generalizing s p with
  | nil => exact absurd rfl hne
  | cons c a ih =>
    rw [List.cons_append, run_raw s p c _ hm (h c (by simp))]
    by_cases ha : a = []
    · subst ha; exact ⟨_, rfl⟩
    · obtain ⟨p', hp'⟩ := ih { s with cur := some (s.cur.getD [] ++ [c]), prevBrace := false } (some c) hm ha
        (fun d hd => h d (by simp [hd]))
      refine ⟨p', ?_⟩
      rw [hp']
      simp

/-- a line feed while reading a parameter -/
theorem run_nl (s : PS) (p) (t : Text) (hm : s.mode = .param) : Run s p ('\n' :: t) = Txt s t := by
  unfold Run
  rw [lines_nl]
  simp only
  have : decodeObject s p ['\n'] = .ok s := by
    simp [decodeObject, hm]
  rw [this]
  rfl

/-! ### closing a list -/

/-- state after a list with elements `x` has been closed -/
def closed (done : List (List Val)) (st : List (List Val)) (x : List Val) : PS :=
  match st with
  | [] => ⟨.param, done ++ [x], [], none, true⟩
  | y :: r => ⟨.param, done, (y ++ [.list x]) :: r, none, true⟩

theorem endObject_val (m done x st cur) :
    (PS.mk m done (x :: st) cur false).endObject = .ok (closed done st (x ++ [valOf cur])) := by
  cases st <;> rfl

theorem endObject_brace (m done x st cur) :
    (PS.mk m done (x :: st) cur true).endObject = .ok (closed done st x) := by
  cases st <;> rfl

theorem run_close_val (m done x st cur p k) (hm : m = .param ∨ m = .endStr) :
    Run (PS.mk m done (x :: st) cur false) p ('}' :: k) = Run (closed done st (x ++ [valOf cur])) (some '}') k := by
  apply run_cons' _ _ _ _ _ (by decide)
  intro l
  rcases hm with rfl | rfl <;> (rw [decodeObject]; simp [endObject_val])

theorem run_comma_val (m done x st cur p k) (hm : m = .param ∨ m = .endStr) :
    Run (PS.mk m done (x :: st) cur false) p (',' :: k) =
      Run ⟨.param, done, (x ++ [valOf cur]) :: st, some [], false⟩ (some ',') k := by
  apply run_cons' _ _ _ _ _ (by decide)
  intro l
  rcases hm with rfl | rfl <;> (rw [decodeObject]; simp [PS.endValue])

theorem run_comma_brace (done st cur p k) :
    Run (PS.mk .param done st cur true) p (',' :: k) =
      Run ⟨.param, done, st, cur, false⟩ (some ',') k := by
  apply run_cons' _ _ _ _ _ (by decide)
  intro l
  rw [decodeObject]; simp [PS.endValue]

/-- a closing brace at the start of a line, after a list -/
theorem txt_close_brace (done x st cur k) (hk : k.head? ≠ some '"') :
    Txt (PS.mk .param done (x :: st) cur true) ('}' :: k) = Run (closed done st x) none k := by
  unfold Txt Run
  cases hl : lines k with
  | nil =>
    have := lines_eq_nil k hl
    subst this
    have : lines ['}'] = [['}']] := by decide
    rw [this]
    simp only [lines, decodeLines, decodeLine, lineParam]
    simp [endObject_brace, decodeObject]
  | cons l ls =>
    rw [lines_cons _ _ (by decide), hl]
    simp only [decodeLines, decodeLine, lineParam]
    simp [endObject_brace]
    cases decodeObject (closed done st x) none l <;> rfl

/-- an opening brace at the start of a line (not a binary) -/
theorem txt_open (done st cur pb t) (ht : t.head? ≠ some '#') :
    Txt (PS.mk .param done st cur pb) ('{' :: t) = Run ⟨.param, done, [] :: st, some [], pb⟩ none t := by
  unfold Txt Run
  cases hl : lines t with
  | nil =>
    have := lines_eq_nil t hl
    subst this
    have : lines ['{'] = [['{']] := by decide
    rw [this]
    simp only [lines, decodeLines, decodeLine, lineParam]
    simp [openBrace, decodeObject]
  | cons l ls =>
    rw [lines_cons _ _ (by decide), hl]
    simp only [decodeLines, decodeLine, lineParam]
    have : "#base64".toList.isPrefixOf l = false := by
      cases t with
      | nil => simp [lines] at hl
      | cons c t =>
        have hc : c ≠ '#' := by simpa using ht
        have : ∃ l', l = c :: l' := by
          rw [lines] at hl
          split at hl
          · rename_i h; subst h; injection hl with h1; exact ⟨_, h1.symm⟩
          · split at hl
            · injection hl with h1; exact ⟨_, h1.symm⟩
            · injection hl with h1; exact ⟨_, h1.symm⟩
        obtain ⟨l', rfl⟩ := this
        have e : "#base64".toList = '#' :: "base64".toList := by decide
        rw [e]
        simp [List.isPrefixOf, Ne.symm hc]
    simp only [openBrace, this, if_pos, Bool.false_eq_true, if_false]
    cases decodeObject (PS.mk .param done ([] :: st) (some []) pb) none l <;> rfl

end V8.Brace
