import Verif.BraceQuoted
namespace V8.Brace

/-! ### binaries over several lines -/

/-- what separates the lines of a binary, after the line feed that ends each line -/
def sepTail (win : Bool) : Text := if win then ['\n'] else []
def sepOf (win : Bool) : Text := '\n' :: sepTail win

/-- chunks written with separators -/
def joinC (sep : Text) : List Text → Text
  | [] => []
  | [a] => a
  | a :: b :: r => a ++ (sep ++ joinC sep (b :: r))

/-- characters that can be in a binary -/
def BinText (w : Text) : Prop := ∀ c ∈ w, c ≠ '}' ∧ c ≠ '\n'

theorem txt_skip (win : Bool) (done st cur pb t) :
    Txt (PS.mk .b64 done st cur pb) (sepTail win ++ t) = Txt (PS.mk .b64 done st cur pb) t := by
  cases win
  · rfl
  · have e : sepTail true ++ t = '\n' :: t := rfl
    rw [e, txt_lines _ _ _ _ (lines_nl t)]
    simp [decodeLine, lineB64, Txt]

theorem takeWhile_bin (w : Text) (hw : BinText w) (l : Text) :
    (w ++ '}' :: l).takeWhile (· ≠ '}') = w := by
  induction w with
  | nil => simp
  | cons c w ih =>
    have := hw c (by simp)
    have := ih (fun d hd => hw d (by simp [hd]))
    simp only [List.cons_append, List.takeWhile_cons, this]
    simp [‹c ≠ '}' ∧ c ≠ '\n'›.1]

/-- the closing line of a binary -/
theorem decodeB64_close (m done x st v first w l) (hw : BinText w) :
    decodeB64 (PS.mk m done (x :: st) (some v) false) (w ++ '}' :: l) first =
      decodeObject (closed done st (x ++ [.str (if first then '#' :: (v ++ w) else v ++ w)])) none l := by
  unfold decodeB64
  have h1 : '}' ∈ w ++ '}' :: l := by simp
  simp only [if_pos h1, takeWhile_bin w hw, endObject_val, valOf]
  congr 1
  simp [List.drop_append]

theorem decodeB64_line (m done x st v pb first w) (hw : BinText w) :
    decodeB64 (PS.mk m done (x :: st) (some v) pb) (w ++ ['\n']) first =
      .ok (PS.mk m done (x :: st) (some (v ++ w)) pb) := by
  unfold decodeB64
  have h1 : '}' ∉ w ++ ['\n'] := by
    simp only [List.mem_append, not_or]
    exact ⟨fun h => (hw _ h).1 rfl, by decide⟩
  simp only [if_neg h1, List.dropLast_concat]

theorem lineB64_eq (s : PS) (w l : Text) (h : w ++ l ≠ ['\n']) : lineB64 s (w ++ l) = decodeB64 s (w ++ l) false := by
  unfold lineB64; rw [if_neg h]

theorem txt_chunks (win : Bool) (chunks : List Text) (hne : chunks ≠ [])
    (hw : ∀ w ∈ chunks, BinText w) (hpos : ∀ w ∈ chunks.dropLast, w ≠ []) (done x st v k)
    (hk : k.head? ≠ some '"') :
    Txt (PS.mk .b64 done (x :: st) (some v) false) (joinC (sepOf win) chunks ++ '}' :: k) =
      Run (closed done st (x ++ [.str (v ++ chunks.flatten)])) none k := by
  induction chunks generalizing v with
  | nil => exact absurd rfl hne
  | cons a r ih =>
    have ha := hw a (by simp)
    cases r with
    | nil =>
      simp only [joinC, List.flatten_cons, List.flatten_nil, List.append_nil]
      have hnl : '\n' ∉ a ++ ['}'] := by
        simp only [List.mem_append, not_or]; exact ⟨fun h => (ha _ h).2 rfl, by decide⟩
      cases hl : lines k with
      | nil =>
        have := lines_eq_nil k hl
        subst this
        have hl2 : lines (a ++ '}' :: []) = [a ++ ['}']] := by
          have := lines_prefix a ['}'] [] ['}'] (fun h => (ha _ h).2 rfl) (by decide)
          exact this
        rw [txt_lines _ _ _ _ hl2]
        simp only [decodeLine]
        rw [lineB64_eq _ _ _ (by intro h; have := congrArg (List.getLast? ·) h; simp at this), decodeB64_close _ _ _ _ _ _ _ _ ha]
        simp [decodeObject, Run, lines, decodeLines]
      | cons l ls =>
        have hl2 := lines_prefix (a ++ ['}']) l ls k hnl hl
        have e : a ++ '}' :: k = a ++ ['}'] ++ k := by simp
        rw [e, txt_lines _ _ _ _ hl2]
        simp only [decodeLine, List.append_assoc, List.cons_append, List.nil_append]
        rw [lineB64_eq _ _ _ (by
          intro h
          have : '}' ∈ ['\n'] := by rw [← h]; simp
          simp at this), decodeB64_close _ _ _ _ _ _ _ _ ha]
        unfold Run
        rw [hl]
        simp
    | cons b r =>
      have hap : a ≠ [] := hpos a (by simp)
      have e : joinC (sepOf win) (a :: b :: r) ++ '}' :: k =
          a ++ '\n' :: (sepTail win ++ (joinC (sepOf win) (b :: r) ++ '}' :: k)) := by
        simp [joinC, sepOf]
      rw [e, txt_lines _ _ _ _ (lines_append a _ (fun h => (ha _ h).2 rfl))]
      simp only [decodeLine]
      rw [lineB64_eq _ _ _ (by
        intro h
        cases a with
        | nil => exact hap rfl
        | cons c a => simp at h), decodeB64_line _ _ _ _ _ _ _ _ ha]
      simp only
      have := ih (by simp) (fun w hw' => hw w (by simp [hw'])) (fun w hw' => hpos w (by simp [List.dropLast]; exact .inr hw'))
        (v ++ a)
      have h2 : decodeLines (PS.mk .b64 done (x :: st) (some (v ++ a)) false) (lines (sepTail win ++ (joinC (sepOf win) (b :: r) ++ '}' :: k)))
          = Txt (PS.mk .b64 done (x :: st) (some (v ++ a)) false) (sepTail win ++ (joinC (sepOf win) (b :: r) ++ '}' :: k)) := rfl
      rw [h2, txt_skip, this]
      simp

/-- the wrapped tail of a `#base64:` value as chunks -/
theorem tail64_chunks (sep : Text) (n : Nat) (t : Text) (hn : t.length ≤ n) :
    ∃ chunks, chunks ≠ [] ∧ tail64 sep t = sep ++ joinC sep chunks ∧ chunks.flatten = t ∧
      (∀ w ∈ chunks.dropLast, w.length = 64) ∧ (∀ w ∈ chunks, w.length ≤ 64) := by
  induction n generalizing t with
  | zero =>
    have : t = [] := List.eq_nil_of_length_eq_zero (by omega)
    subst this
    refine ⟨[[]], by simp, ?_, by simp, by simp, by simp⟩
    rw [tail64]; simp [joinC]
  | succ n ih =>
    by_cases h : 64 ≤ t.length
    · obtain ⟨ch, h1, h2, h3, h4, h5⟩ := ih (t.drop 64) (by simp; omega)
      refine ⟨t.take 64 :: ch, by simp, ?_, ?_, ?_, ?_⟩
      · rw [tail64, if_pos h, h2]
        cases ch with
        | nil => exact absurd rfl h1
        | cons b r => simp [joinC]
      · simp [h3]
      · intro w hw
        cases ch with
        | nil => exact absurd rfl h1
        | cons b r =>
          rw [List.dropLast_cons_of_ne_nil (by simp)] at hw
          rcases List.mem_cons.mp hw with rfl | hw
          · simp; omega
          · exact h4 w hw
      · intro w hw
        rcases List.mem_cons.mp hw with rfl | hw
        · simp; omega
        · exact h5 w hw
    · refine ⟨[t], by simp, ?_, by simp, by simp, by simp; omega⟩
      rw [tail64, if_neg h]; rfl

theorem split64_chunks (sep : Text) (n : Nat) (t : Text) (hn : t.length ≤ n) (ht : 64 < t.length) :
    ∃ a chunks, chunks ≠ [] ∧ split64 sep t = a ++ (sep ++ joinC sep chunks) ∧ a ++ chunks.flatten = t ∧
      a.length = 64 ∧ (∀ w ∈ chunks, w ≠ []) := by
  induction n generalizing t with
  | zero => omega
  | succ n ih =>
    rw [split64, if_pos ht]
    by_cases h : 64 < (t.drop 64).length
    · obtain ⟨a, ch, h1, h2, h3, h4, h5⟩ := ih (t.drop 64) (by simp; omega) h
      refine ⟨t.take 64, a :: ch, by simp, ?_, ?_, by simp; omega, ?_⟩
      · rw [h2]
        cases ch with
        | nil => exact absurd rfl h1
        | cons b r => simp [joinC]
      · simp [h3]
      · intro w hw
        rcases List.mem_cons.mp hw with rfl | hw
        · intro h0; rw [h0] at h4; simp at h4
        · exact h5 w hw
    · refine ⟨t.take 64, [t.drop 64], by simp, ?_, by simp, by simp; omega, ?_⟩
      · rw [split64, if_neg h]; simp [joinC]
      · intro w hw
        simp only [List.mem_singleton] at hw
        subst hw
        intro h0
        have := congrArg List.length h0
        simp at this; omega

/-! ### elements -/

def cur0 (prev : Bool) : Option Text := if prev then none else some []

theorem cur0_getD (prev : Bool) : (cur0 prev).getD [] = [] := by cases prev <;> rfl

theorem encStr_atom (sep e : Text) (h : Atom e) : encStr sep e = e := by
  obtain ⟨h1, h2⟩ := h
  have hh : e.head? ≠ some '#' := by
    rcases h1 with ⟨s, _, rfl⟩ | ⟨h, _⟩
    · simp [quoted]
    · exact h
  have p1 : "#base64:".toList.isPrefixOf e = false := by
    have e1 : "#base64:".toList = '#' :: "base64:".toList := by decide
    rw [e1]
    cases e with
    | nil => rfl
    | cons c e => simp only [List.head?_cons, ne_eq, Option.some.injEq] at hh; simp [List.isPrefixOf, Ne.symm hh]
  have p2 : "##base64:".toList.isPrefixOf e = false := by
    have e1 : "##base64:".toList = '#' :: "#base64:".toList := by decide
    rw [e1]
    cases e with
    | nil => rfl
    | cons c e => simp only [List.head?_cons, ne_eq, Option.some.injEq] at hh; simp [List.isPrefixOf, Ne.symm hh]
  unfold encStr
  rw [p1, p2]
  simp only [Bool.false_eq_true, if_false]
  rw [if_neg]
  intro h3
  apply h2
  simpa [TakenForBase64] using h3

/-- an atom up to the comma or brace after it -/
theorem run_atom (prev : Bool) (e : Text) (hpe : e = [] → prev = false) (h : Atom e) (done st p c k) (hc : c = ',' ∨ c = '}') :
    ∃ m p', (m = .param ∨ m = .endStr) ∧
      Run (PS.mk .param done st (cur0 prev) false) p (e ++ c :: k) =
        Run (PS.mk m done st (some e) false) p' (c :: k) := by
  by_cases he : e = []
  · subst he
    have := hpe rfl
    subst this
    exact ⟨.param, p, .inl rfl, rfl⟩
  · rcases h.1 with ⟨s, _, rfl⟩ | ⟨_, hraw⟩
    · obtain ⟨p', hp⟩ := run_quoted s done st (cur0 prev) false p c k (by rcases hc with rfl | rfl <;> decide)
      refine ⟨.endStr, p', .inr rfl, ?_⟩
      rw [hp, cur0_getD, List.nil_append]
    · obtain ⟨p', hp⟩ := run_raws (PS.mk .param done st (cur0 prev) false) p e (c :: k) rfl he
        (fun d hd => ⟨(hraw d hd).1, (hraw d hd).2.1, (hraw d hd).2.2.1, (hraw d hd).2.2.2.1⟩)
      refine ⟨.param, p', .inl rfl, ?_⟩
      rw [hp]
      simp only [cur0_getD, List.nil_append]

theorem isB64_ne (c : Char) (h : isB64 c = true ∨ c = '=') :
    c ≠ ',' ∧ c ≠ '}' ∧ c ≠ '"' ∧ c ≠ '\n' ∧ c ≠ '\r' ∧ c ≠ '{' ∧ c ≠ '#' := by
  refine ⟨?_, ?_, ?_, ?_, ?_, ?_, ?_⟩ <;> rintro rfl <;> revert h <;> decide

theorem longB64_clean (e : Text) (h : LongB64 e) : ∀ c ∈ e, c ≠ ',' ∧ c ≠ '}' ∧ c ≠ '"' ∧ c ≠ '\n' ∧ c ≠ '\r' ∧ c ≠ '{' ∧ c ≠ '#' :=
  fun c hc => isB64_ne c (h.2 c hc)

theorem encStr_long (sep e : Text) (h : LongB64 e) : encStr sep e = split64 sep e := by
  have hh : e.head? ≠ some '#' := by
    cases e with
    | nil => simp
    | cons c e => simp only [List.head?_cons, ne_eq, Option.some.injEq]; exact (longB64_clean _ h c (by simp)).2.2.2.2.2.2
  have p1 : "#base64:".toList.isPrefixOf e = false := by
    have e1 : "#base64:".toList = '#' :: "base64:".toList := by decide
    rw [e1]
    cases e with
    | nil => rfl
    | cons c e => simp only [List.head?_cons, ne_eq, Option.some.injEq] at hh; simp [List.isPrefixOf, Ne.symm hh]
  have p2 : "##base64:".toList.isPrefixOf e = false := by
    have e1 : "##base64:".toList = '#' :: "#base64:".toList := by decide
    rw [e1]
    cases e with
    | nil => rfl
    | cons c e => simp only [List.head?_cons, ne_eq, Option.some.injEq] at hh; simp [List.isPrefixOf, Ne.symm hh]
  unfold encStr
  rw [p1, p2]
  simp only [Bool.false_eq_true, if_false]
  rw [if_pos]
  simpa [TakenForBase64] using h.1

theorem allData_cons (m done x st cur pb) : (PS.mk m done (x :: st) cur pb).allData ≠ [] := by
  simp [PS.allData]

/-- a wrapped raw base64 token, last in its list -/
theorem run_longB64 (win : Bool) (prev : Bool) (e : Text) (h : LongB64 e) (done x st p k) (hk : k.head? ≠ some '"') :
    Run (PS.mk .param done (x :: st) (cur0 prev) false) p (split64 (sepOf win) e ++ '}' :: k) =
      Run (closed done st (x ++ [.str e])) none k := by
  have hcl := longB64_clean e h
  obtain ⟨a, ch, h1, h2, h3, h4, h5⟩ := split64_chunks (sepOf win) e.length e (Nat.le_refl _) h.1.1
  rw [h2]
  have hbin : ∀ w ∈ ch, BinText w := by
    intro w hw c hc
    have := hcl c (by rw [← h3]; simp only [List.mem_append, List.mem_flatten]; exact .inr ⟨w, hw, hc⟩)
    exact ⟨this.2.1, this.2.2.2.1⟩
  have ha : a ≠ [] := by intro h0; rw [h0] at h4; simp at h4
  obtain ⟨p', hp⟩ := run_raws (PS.mk .param done (x :: st) (cur0 prev) false) p a (sepOf win ++ joinC (sepOf win) ch ++ '}' :: k) rfl ha
    (fun c hc => by
      have := hcl c (by rw [← h3]; simp [hc])
      exact ⟨this.1, this.2.1, this.2.2.1, this.2.2.2.1⟩)
  have hp2 := hp
  simp only [cur0_getD, List.nil_append] at hp2
  rw [List.append_assoc, hp2, List.append_assoc, sepOf, List.cons_append, run_nl _ _ _ rfl]
  have key : ∀ t, (∃ c t', t = c :: t' ∧ c ≠ '{' ∧ c ≠ '}') →
      (t.head? = some '\n' → win = true) →
      Txt (PS.mk .param done (x :: st) (some a) false) (sepTail win ++ t) = Txt (PS.mk .b64 done (x :: st) (some a) false) t := by
    rintro t ⟨c, t', rfl, hc1, hc2⟩ hwin
    have h64 : ∀ m pb, cur64 (PS.mk m done (x :: st) (some a) pb) = true := by intro m pb; simp [cur64, h4]
    cases win
    · have hcn : c ≠ '\n' := by intro h0; simp [h0] at hwin
      have e0 : sepTail false ++ c :: t' = c :: t' := rfl
      obtain ⟨l, ls, hl⟩ := lines_nonempty (c :: t') (by simp)
      obtain ⟨l', rfl⟩ : ∃ l', l = c :: l' := by
        rw [lines_cons _ _ hcn] at hl
        split at hl <;> (injection hl with h1; exact ⟨_, h1.symm⟩)
      rw [e0, txt_lines _ _ _ _ hl, txt_lines _ _ _ _ hl]
      simp only [decodeLine, lineParam, if_neg hc1, if_neg hc2, h64]
      rw [if_neg (by simp [hcn]), if_neg (by simp [allData_cons]), if_neg (by
        rintro ⟨_, h0⟩
        injection h0 with h0
        exact ha h0), if_pos trivial]
    · have e0 : sepTail true ++ c :: t' = '\n' :: c :: t' := rfl
      rw [e0, txt_lines _ _ _ _ (lines_nl _)]
      have : decodeLine (PS.mk .param done (x :: st) (some a) false) ['\n'] = .ok (PS.mk .b64 done (x :: st) (some a) false) := by
        simp only [decodeLine, lineParam, h64]
        simp
      rw [this]
      rfl
  have hchunk := txt_chunks win ch h1 hbin (fun w hw => h5 w (List.dropLast_subset _ hw)) done x st a k hk
  rw [h3] at hchunk
  rw [← hchunk]
  have hshape : ∃ c t', joinC (sepOf win) ch ++ '}' :: k = c :: t' ∧ c ≠ '{' ∧ c ≠ '}' ∧ c ≠ '\n' := by
    cases ch with
    | nil => exact absurd rfl h1
    | cons b r =>
      have hb := h5 b (by simp)
      cases b with
      | nil => exact absurd rfl hb
      | cons c b =>
        have hc := hcl c (by rw [← h3]; simp)
        refine ⟨c, ?_, ?_, hc.2.2.2.2.2.1, hc.2.1, hc.2.2.2.1⟩
        · exact (joinC (sepOf win) ((c :: b) :: r) ++ '}' :: k).tail
        · cases r <;> simp [joinC]
  obtain ⟨c, t', hs, hc1, hc2, hc3⟩ := hshape
  have e1 : sepTail win ++ (joinC ('\n' :: sepTail win) ch ++ '}' :: k) = sepTail win ++ (joinC (sepOf win) ch ++ '}' :: k) := by
    simp [sepOf]
  rw [e1, key _ ⟨c, t', hs, hc1, hc2⟩ (by rw [hs]; simp [hc3])]

/-! ### a blob list -/

def BigCtx (done stack : List (List Val)) : Prop := done = [] ∧ stack.getLast? = some [.str ['1']]

theorem collapse_last (x : List Val) (st : List (List Val)) (hst : st ≠ []) :
    ∃ v, collapse x st = st.getLast hst ++ [.list v] := by
  induction st generalizing x with
  | nil => exact absurd rfl hst
  | cons y r ih =>
    rw [collapse]
    by_cases hr : r = []
    · subst hr; exact ⟨x, rfl⟩
    · obtain ⟨v, hv⟩ := ih (y ++ [.list x]) hr
      exact ⟨v, by rw [hv, List.getLast_cons hr]⟩

theorem not_big (done st : List (List Val)) (m cur pb v) (h : ¬ BigCtx done st) :
    (PS.mk m done ([] :: st) cur pb).allData ≠ [[.str ['1'], v]] := by
  intro h0
  unfold PS.allData at h0
  simp only at h0
  cases done with
  | cons d ds =>
    have := congrArg List.length h0
    simp at this
  | nil =>
    simp only [List.nil_append, List.cons.injEq, and_true] at h0
    cases st with
    | nil => simp [collapse] at h0
    | cons y r =>
      obtain ⟨w, hw⟩ := collapse_last [] (y :: r) (by simp)
      rw [hw] at h0
      apply h
      refine ⟨rfl, ?_⟩
      rw [List.getLast?_eq_some_getLast (by simp)]
      have : (y :: r).getLast (by simp) ++ [.list w] = [.str ['1']] ++ [v] := h0
      have := List.append_inj' this rfl
      rw [this.1]

theorem prefix_line (pre t : Text) (hpre : '\n' ∉ pre) (l : Text) (ls : List Text) (hl : lines (pre ++ t) = l :: ls) :
    pre <+: l := by
  induction pre generalizing l ls with
  | nil => exact List.nil_prefix
  | cons c pre ih =>
    simp only [List.mem_cons, not_or] at hpre
    rw [List.cons_append, lines_cons _ _ (Ne.symm hpre.1)] at hl
    cases hp : lines (pre ++ t) with
    | nil =>
      have := lines_eq_nil _ hp
      simp at this
      rw [hp] at hl
      injection hl with h1
      rw [← h1, this.1]
      exact List.prefix_refl _
    | cons l' ls' =>
      rw [hp] at hl
      injection hl with h1
      rw [← h1]
      exact List.cons_prefix_cons.mpr ⟨rfl, ih hpre.2 l' ls' hp⟩

/-- opening a binary: first line of it -/
theorem txt_open_b64 (done st cur t l ls) (hbig : ¬ BigCtx done st)
    (hpre : "#base64".toList <+: t) (hl : lines t = l :: ls) :
    Txt (PS.mk .param done st cur false) ('{' :: t) =
      match decodeB64 (PS.mk .b64 done ([] :: st) (some []) false) l true with
      | .error e => .error e
      | .ok s => decodeLines s ls := by
  have hl2 : lines ('{' :: t) = ('{' :: l) :: ls := by rw [lines_cons _ _ (by decide), hl]
  rw [txt_lines _ _ _ _ hl2]
  obtain ⟨t', rfl⟩ := hpre
  have hp := prefix_line _ _ (by decide) _ _ hl
  have hp2 : "#base64".toList.isPrefixOf l = true := List.isPrefixOf_iff_prefix.mpr hp
  have : decodeLine (PS.mk .param done st cur false) ('{' :: l) = decodeB64 (PS.mk .b64 done ([] :: st) (some []) false) l true := by
    simp only [decodeLine, lineParam, if_true, openBrace, hp2]
    split
    · rename_i h
      exact absurd h (not_big done st _ _ _ _ hbig)
    · rfl
  rw [this]
  rfl

theorem txt_blob (win : Bool) (e : Text) (hb : Blob e) (done st cur k) (hk : k.head? ≠ some '"')
    (hbig : ¬ BigCtx done st) :
    Txt (PS.mk .param done st cur false) ('{' :: (encStr (sepOf win) e ++ '}' :: k)) =
      Run (closed done st [.str e]) none k := by
  obtain ⟨w, hw, hcase⟩ := hb
  have hbin : BinText w := fun c hc => ⟨(hw c hc).1, (hw c hc).2.1⟩
  rcases hcase with rfl | ⟨rfl, hlen⟩
  · -- one line
    have e1 : encStr (sepOf win) ("##base64:".toList ++ w) = "#base64:".toList ++ w := by
      have p1 : "#base64:".toList.isPrefixOf ("##base64:".toList ++ w) = false := rfl
      have p2 : "##base64:".toList.isPrefixOf ("##base64:".toList ++ w) = true := by
        rw [List.isPrefixOf_iff_prefix]; exact List.prefix_append _ _
      unfold encStr
      rw [p1, p2]
      rfl
    rw [e1]
    have hbin2 : BinText ("#base64:".toList ++ w) := by
      intro c hc
      rcases List.mem_append.mp hc with h | h
      · exact (show ∀ c ∈ "#base64:".toList, c ≠ '}' ∧ c ≠ '\n' by decide) c h
      · exact hbin c h
    have hnl : '\n' ∉ ("#base64:".toList ++ w) ++ ['}'] := by
      intro h
      rcases List.mem_append.mp h with h | h
      · exact (hbin2 _ h).2 rfl
      · simp at h
    have hpre : "#base64".toList <+: ("#base64:".toList ++ w) ++ '}' :: k :=
      ⟨':' :: (w ++ '}' :: k), by simp⟩
    cases hl : lines k with
    | nil =>
      have := lines_eq_nil k hl
      subst this
      have hl2 : lines (("#base64:".toList ++ w) ++ '}' :: []) = [("#base64:".toList ++ w) ++ ['}']] :=
        lines_prefix ("#base64:".toList ++ w) ['}'] [] ['}'] (fun h => (hbin2 _ h).2 rfl) (by decide)
      rw [txt_open_b64 _ _ _ _ _ _ hbig hpre hl2, decodeB64_close _ _ _ _ _ _ _ _ hbin2]
      simp [decodeObject, decodeLines, Run, lines]
    | cons l ls =>
      have hl2 := lines_prefix (("#base64:".toList ++ w) ++ ['}']) l ls k hnl hl
      have e2 : ("#base64:".toList ++ w) ++ '}' :: k = (("#base64:".toList ++ w) ++ ['}']) ++ k := by simp
      rw [e2] at hpre ⊢
      rw [txt_open_b64 _ _ _ _ _ _ hbig hpre hl2]
      have e3 : (("#base64:".toList ++ w) ++ ['}']) ++ l = ("#base64:".toList ++ w) ++ '}' :: l := by simp
      rw [e3, decodeB64_close _ _ _ _ _ _ _ _ hbin2]
      unfold Run
      rw [hl]
      rfl
  · -- several lines
    have p1 : "#base64:".toList.isPrefixOf ("#base64:".toList ++ w) = true := by
      rw [List.isPrefixOf_iff_prefix]; exact List.prefix_append _ _
    have e1 : encStr (sepOf win) ("#base64:".toList ++ w) =
        ("#base64:".toList ++ w).take 72 ++ tail64 (sepOf win) (("#base64:".toList ++ w).drop 72) := by
      unfold encStr
      rw [p1, if_pos rfl, if_pos hlen]
    have hbin2 : BinText ("#base64:".toList ++ w) := by
      intro c hc
      rcases List.mem_append.mp hc with h | h
      · exact (show ∀ c ∈ "#base64:".toList, c ≠ '}' ∧ c ≠ '\n' by decide) c h
      · exact hbin c h
    obtain ⟨ch, h1, h2, h3, h4, _⟩ := tail64_chunks (sepOf win) _ (("#base64:".toList ++ w).drop 72) (Nat.le_refl _)
    have hsplit : ("#base64:".toList ++ w).take 72 ++ ("#base64:".toList ++ w).drop 72 = "#base64:".toList ++ w := List.take_append_drop _ _
    have hpre72 : "#base64".toList <+: ("#base64:".toList ++ w).take 72 :=
      ⟨((':' :: w).take 65), by
        have : "#base64:".toList ++ w = "#base64".toList ++ (':' :: w) := by simp
        rw [this]
        rw [List.take_append]
        rfl⟩
    generalize "#base64:".toList ++ w = e at *
    have hA : BinText (e.take 72) := fun c hc => hbin2 c (List.mem_of_mem_take hc)
    have hB : ∀ w ∈ ch, BinText w := by
      intro w hw c hc
      apply hbin2 c
      rw [← hsplit, ← h3]
      simp only [List.mem_append, List.mem_flatten]
      exact .inr ⟨w, hw, hc⟩
    rw [e1, h2]
    have e2 : e.take 72 ++ (sepOf win ++ joinC (sepOf win) ch) ++ '}' :: k =
        e.take 72 ++ '\n' :: (sepTail win ++ (joinC (sepOf win) ch ++ '}' :: k)) := by simp [sepOf]
    rw [e2]
    have hl := lines_append (e.take 72) (sepTail win ++ (joinC (sepOf win) ch ++ '}' :: k)) (fun h => (hA _ h).2 rfl)
    rw [txt_open_b64 _ _ _ _ _ _ hbig (hpre72.trans (List.prefix_append _ _)) hl,
      decodeB64_line _ _ _ _ _ _ _ _ hA]
    have h5 : decodeLines (PS.mk .b64 done ([] :: st) (some ([] ++ e.take 72)) false) (lines (sepTail win ++ (joinC (sepOf win) ch ++ '}' :: k)))
        = Txt (PS.mk .b64 done ([] :: st) (some (e.take 72)) false) (sepTail win ++ (joinC (sepOf win) ch ++ '}' :: k)) := rfl
    simp only [h5]
    rw [txt_skip, txt_chunks win ch h1 hB (fun w hw h0 => by have := h4 w hw; rw [h0] at this; simp at this) _ _ _ _ _ hk,
      h3, hsplit]
    rfl

end V8.Brace
