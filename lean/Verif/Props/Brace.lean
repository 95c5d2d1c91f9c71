import Verif.BraceRound
import Verif.BraceParity
/-
Property theorems C10-C14 (brace files) about the model Verif/Brace.lean; vocabulary in Verif/BraceSpec.lean.
`win` is the platform on which the text is written (line ends "\r\n" on Windows).
-/
namespace V8.Brace

/-! ## C10 -/

/-- **C10.**  Serialising a well-formed tree, writing it to a text file and parsing the file returns the same tree, on
both platforms, for any depth, width and string contents. -/
theorem C10_round_trip (win : Bool) (d : List (List Val)) (hne : d ≠ []) (hd : WFFile d) : writeRead win d = .ok d := by
  unfold writeRead
  rw [io_root win d hd.1]
  exact decode_root win d hd hne

/-- the same without going through a file (text handed to the parser with line feeds) -/
theorem C10_no_translation (d : List (List Val)) (hne : d ≠ []) (hd : WFFile d) :
    decodeFile (encRootWith ['\n'] d) = .ok d := decode_root false d hd hne

theorem atom_raw (e : Text) (h : e.head? ≠ some '#') (h2 : ∀ c ∈ e, c ≠ ',' ∧ c ≠ '}' ∧ c ≠ '"' ∧ c ≠ '\n' ∧ c ≠ '\r')
    (h3 : ¬ TakenForBase64 e) : Atom e := ⟨.inr ⟨h, h2⟩, h3⟩

/-- a non-trivial well-formed file: nested lists, an empty value after a list, a literal with braces, commas, quotes and
line breaks that begins with a line break, a second root -/
example : WFFile [[.str "1".toList, .list [.str "-5".toList, .str (quoted "\n{a,\"b\"}\n".toList)], .none, .list [.str []]],
    [.list [.list [.str (quoted [])], .str "7".toList]]] := by
  have h1 : Atom "1".toList := atom_raw _ (by decide) (by decide) (by decide)
  have h2 : Atom "-5".toList := atom_raw _ (by decide) (by decide) (by decide)
  have h3 : Atom (quoted "\n{a,\"b\"}\n".toList) := ⟨.inl ⟨_, by decide, rfl⟩, by decide⟩
  have h4 : Atom [] := atom_raw _ (by decide) (by decide) (by decide)
  have h5 : Atom (quoted []) := ⟨.inl ⟨_, by decide, rfl⟩, by decide⟩
  have h6 : Atom "7".toList := atom_raw _ (by decide) (by decide) (by decide)
  refine ⟨?_, ?_⟩
  · intro l hl
    simp only [List.mem_cons, List.not_mem_nil, or_false] at hl
    rcases hl with rfl | rfl
    · exact .inr ⟨by simp, ⟨by simp, .inl h1⟩, .inr ⟨by simp, ⟨by simp, .inl h2⟩, ⟨by simp [quoted], .inl h3⟩, trivial⟩,
        rfl, .inr ⟨by simp, ⟨by simp, .inl h4⟩, trivial⟩, trivial⟩
    · exact .inr ⟨by simp, .inr ⟨by simp, .inr ⟨by simp, ⟨by simp [quoted], .inl h5⟩, trivial⟩, ⟨by simp, .inl h6⟩, trivial⟩, trivial⟩
  · intro h
    simp only [HasBlob, HasBlobs] at h
    rcases h with ⟨e, h, _⟩ | h | h | h
    · simp at h
    all_goals exact h

/-- the empty list does not survive (it becomes a list with one empty value): why well-formed lists are non-empty -/
theorem C10_empty_list_changes : writeRead false [[]] = .ok [[.str []]] := by decide

/-! ## C13 -/

/-- one more round: parse a text as it is found on disk and serialise the result -/
def resave (t : Text) (win : Bool) : Except BErr Text :=
  match decodeFile (io win t) with
  | .error e => .error e
  | .ok d => .ok (encRoot d)

/-- any number of further rounds, each on any platform -/
def resaves (t : Text) : List Bool → Except BErr Text
  | [] => .ok t
  | w :: ws => match resave t w with
    | .error e => .error e
    | .ok t => resaves t ws

/-- **C13.**  The text made from a well-formed tree is reproduced exactly by any number of parse/serialise rounds. -/
theorem C13_stable (d : List (List Val)) (hne : d ≠ []) (hd : WFFile d) (platforms : List Bool) :
    resaves (encRoot d) platforms = .ok (encRoot d) := by
  induction platforms with
  | nil => rfl
  | cons w ws ih =>
    have h := C10_round_trip w d hne hd
    unfold writeRead at h
    simp only [resaves, resave, h, ih]

/-! ## C11 -/

/-- without padding characters, a text passes the base64 test exactly when the number of its base64 letters is a
multiple of four (all other characters are ignored) -/
theorem b64ok_count (t : Text) (q pads : Nat) (hq : q < 4) (h : '=' ∉ t) :
    b64ok q pads t = decide ((q + (t.filter isB64).length) % 4 = 0) := by
  induction t generalizing q pads with
  | nil =>
    simp only [b64ok, List.filter_nil, List.length_nil, Nat.add_zero, Nat.mod_eq_of_lt hq]
    cases q <;> rfl
  | cons c t ih =>
    simp only [List.mem_cons, not_or] at h
    rw [b64ok, if_neg (Ne.symm h.1)]
    by_cases hc : isB64 c = true
    · rw [if_pos hc, ih _ _ (Nat.mod_lt _ (by decide)) h.2, List.filter_cons_of_pos hc, List.length_cons]
      congr 1
      rw [Nat.mod_add_mod]
      congr 2
      omega
    · rw [if_neg hc, ih _ _ hq h.2, List.filter_cons_of_neg hc]

theorem filter_esc (s : Text) : (esc s).filter isB64 = s.filter isB64 := by
  induction s with
  | nil => rfl
  | cons d s ih =>
    rw [esc_cons, List.filter_append, ih]
    by_cases hd : d = '"'
    · subst hd
      rw [if_pos rfl, List.filter_cons_of_neg (by decide)]; rfl
    · rw [if_neg hd, List.filter_cons, List.filter_cons]; split <;> simp

/-- **C11, partial.**  A string literal survives when it is short, or contains a non-ASCII character (Cyrillic, ...), or
has no '=' and a number of base64 letters that is not a multiple of four.  Missing: the other long ASCII literals, which
are corrupted (`C11_long_string_corrupted`). -/
theorem C11_strings_survive_partial (win : Bool) (s : Text) (hs : '\r' ∉ s)
    (h : (quoted s).length ≤ 64 ∨ (∃ c ∈ s, 128 ≤ c.toNat) ∨
      ('=' ∉ s ∧ (s.filter isB64).length % 4 ≠ 0)) :
    writeRead win [[.str (quoted s)]] = .ok [[.str (quoted s)]] := by
  have hmem : ∀ c ∈ s, c ∈ quoted s := by
    intro c hc
    rw [quoted_eq]
    simp only [esc, List.cons_append, List.mem_cons, List.mem_append, List.mem_flatMap]
    exact .inr (.inl ⟨c, hc, by split <;> simp_all⟩)
  have hnt : ¬ TakenForBase64 (quoted s) := by
    rintro ⟨h1, h2⟩
    unfold b64decodes at h2
    simp only [Bool.and_eq_true, List.all_eq_true, decide_eq_true_eq] at h2
    rcases h with h | ⟨c, hc, h⟩ | ⟨he, hcnt⟩
    · omega
    · have := h2.1 c (hmem c hc); omega
    · have hesc : '=' ∉ quoted s := by
        rw [quoted_eq]
        intro hm
        simp only [List.cons_append, List.mem_cons, List.mem_append] at hm
        rcases hm with hm | hm | hm
        · simp at hm
        · exact nl_mem_esc' s '=' (by decide) he hm
        · simp at hm
      rw [b64ok_count _ _ _ (by decide) hesc] at h2
      apply hcnt
      have hf : (quoted s).filter isB64 = s.filter isB64 := by
        rw [quoted_eq, List.cons_append, List.filter_cons_of_neg (by decide), List.filter_append]
        have : ['"'].filter isB64 = [] := by decide
        rw [this, List.append_nil]
        exact filter_esc s
      rw [hf] at h2
      simpa using h2.2
  have ha : Atom (quoted s) := ⟨.inl ⟨s, hs, rfl⟩, hnt⟩
  apply C10_round_trip win _ (by simp)
  refine ⟨?_, trivial⟩
  intro l hl
  simp only [List.mem_singleton] at hl
  subst hl
  exact .inr ⟨by simp, ⟨by simp [quoted], .inl ha⟩, trivial⟩

example : ((∃ c ∈ "Привет".toList, 128 ≤ c.toNat)) ∧ ("a b".toList.filter isB64).length % 4 ≠ 0 := by decide

theorem joinC_length (sep : Text) (ch : List Text) (hne : ch ≠ []) :
    (joinC sep ch).length = ch.flatten.length + (ch.length - 1) * sep.length := by
  induction ch with
  | nil => exact absurd rfl hne
  | cons a r ih =>
    cases r with
    | nil => simp [joinC]
    | cons b r =>
      simp only [joinC, List.length_append, ih (by simp), List.flatten_cons, List.length_cons, Nat.add_sub_cancel]
      rw [Nat.succ_mul]; omega

theorem joinC_subset (sep : Text) (ch : List Text) (c : Char) (h : c ∈ joinC sep ch) : c ∈ sep ∨ c ∈ ch.flatten := by
  induction ch with
  | nil => simp [joinC] at h
  | cons a r ih =>
    cases r with
    | nil => right; simpa [joinC] using h
    | cons b r =>
      simp only [joinC, List.mem_append] at h
      rcases h with h | h | h
      · right; simp [h]
      · left; exact h
      · rcases ih h with h | h
        · left; exact h
        · right; simp only [List.flatten_cons, List.mem_append] at h ⊢; exact .inr h

theorem esc_id (s : Text) (h : '"' ∉ s) : esc s = s := by
  induction s with
  | nil => rfl
  | cons c s ih =>
    simp only [List.mem_cons, not_or] at h
    rw [esc_cons, if_neg (Ne.symm h.1), ih h.2]
    rfl

theorem joinC_last (sep : Text) (ch : List Text) (t : Text) (c : Char) (hne : ch ≠ []) (hfl : ch.flatten = t ++ [c])
    (hpos : ∀ w ∈ ch, w ≠ []) : ∃ u, joinC sep ch = u ++ [c] := by
  induction ch generalizing t with
  | nil => exact absurd rfl hne
  | cons a r ih =>
    cases r with
    | nil => exact ⟨t, by simpa [joinC] using hfl⟩
    | cons b r =>
      have hb : (b :: r).flatten ≠ [] := by
        intro h
        exact hpos b (by simp) (by simp at h; exact h.1)
      obtain ⟨t2, c2, h2⟩ : ∃ t2 c2, (b :: r).flatten = t2 ++ [c2] :=
        ⟨_, _, (List.dropLast_concat_getLast hb).symm⟩
      have hc : c2 = c := by
        rw [List.flatten_cons, h2, ← List.append_assoc] at hfl
        have := List.append_inj' hfl rfl
        simpa using this.2
      subst hc
      obtain ⟨u, hu⟩ := ih t2 (by simp) h2 (fun w hw => hpos w (by simp [hw]))
      exact ⟨a ++ (sep ++ u), by simp [joinC, hu]⟩

/-- **C11 is false of the code.**  Every long literal without inner quotes that happens to pass the (non-validating)
base64 test is changed by a write and a read: line breaks are inserted into it. -/
theorem C11_long_string_corrupted (win : Bool) (s : Text) (hq : '"' ∉ s) (hr : '\r' ∉ s) (h : TakenForBase64 (quoted s)) :
    ∃ s', s' ≠ s ∧ s.length < s'.length ∧ writeRead win [[.str (quoted s)]] = .ok [[.str (quoted s')]] := by
  have hqs : quoted s = '"' :: s ++ ['"'] := by rw [quoted_eq, esc_id s hq]
  have henc : ∀ sep, encStr sep (quoted s) = split64 sep (quoted s) := by
    intro sep
    have p1 : "#base64:".toList.isPrefixOf (quoted s) = false := by rw [hqs]; rfl
    have p2 : "##base64:".toList.isPrefixOf (quoted s) = false := by rw [hqs]; rfl
    unfold encStr
    rw [p1, p2]
    simp only [Bool.false_eq_true, if_false]
    rw [if_pos]
    simpa [TakenForBase64] using h
  have hclean : '\r' ∉ quoted s := by
    rw [hqs]; simp [hr]
  have hio : io win (encRoot [[.str (quoted s)]]) = '{' :: (split64 (sepOf win) (quoted s) ++ ['}']) := by
    have h1 := io_clean win ['{'] (encStr ['\r', '\n'] (quoted s) ++ ['}']) (by decide)
    have h2 := io_encStr win (quoted s) ['}'] hclean
    have h3 : io win ['}'] = ['}'] := by cases win <;> decide
    simp only [List.cons_append, List.nil_append] at h1
    show io win ('{' :: (encStr ['\r', '\n'] (quoted s) ++ ['}'])) = _
    rw [h1, h2, h3, henc]
  -- the wrapped literal is again a literal
  obtain ⟨a, ch, h1, h2, h3, h4, h5⟩ := split64_chunks (sepOf win) (quoted s).length (quoted s) (Nat.le_refl _) h.1
  have hane : a ≠ [] := by intro h0; rw [h0] at h4; simp at h4
  obtain ⟨a', rfl⟩ : ∃ a', a = '"' :: a' := by
    cases a with
    | nil => exact absurd rfl hane
    | cons c a' =>
      rw [hqs] at h3
      simp only [List.cons_append, List.cons.injEq] at h3
      exact ⟨a', by rw [h3.1]⟩
  have h3' : a' ++ ch.flatten = s ++ ['"'] := by
    rw [hqs] at h3
    simpa using h3
  obtain ⟨f, hf⟩ : ∃ f, ch.flatten = f ++ ['"'] := by
    have hfn : ch.flatten ≠ [] := by
      cases ch with
      | nil => exact absurd rfl h1
      | cons b r => intro h0; exact h5 b (by simp) (by simp at h0; exact h0.1)
    refine ⟨ch.flatten.dropLast, ?_⟩
    have hlast := (List.dropLast_concat_getLast hfn).symm
    rw [hlast, ← List.append_assoc] at h3'
    have := (List.append_inj' h3' rfl).2
    simp only [List.cons.injEq, and_true] at this
    rw [this] at hlast
    exact hlast
  obtain ⟨u, hu⟩ := joinC_last (sepOf win) ch f '"' h1 hf h5
  have hs3 : s = a' ++ f := by
    rw [hf, ← List.append_assoc] at h3'
    exact (List.append_inj' h3' rfl).1.symm
  have hulen : u.length + 1 = f.length + 1 + (ch.length - 1) * (sepOf win).length := by
    have := joinC_length (sepOf win) ch h1
    rw [hu, hf] at this
    simpa using this
  have hsep : 1 ≤ (sepOf win).length := by simp [sepOf]
  have hsq : '"' ∉ sepOf win := by cases win <;> decide
  have hjq : '"' ∉ u := by
    -- count quotes
    have hcount : (joinC (sepOf win) ch).count '"' = ch.flatten.count '"' := by
      clear hu hf h2 h3 h3' h5 hulen h4 hane hs3
      induction ch with
      | nil => rfl
      | cons b r ih =>
        cases r with
        | nil => simp [joinC]
        | cons d r =>
          simp only [joinC, List.count_append, List.flatten_cons, List.count_eq_zero.mpr hsq] at *
          rw [ih (by simp)]
          omega
    rw [hu, hf] at hcount
    simp only [List.count_append, List.count_cons_self, List.count_nil] at hcount
    have : f.count '"' = 0 := List.count_eq_zero.mpr (by intro hm; exact hq (by rw [hs3]; simp [hm]))
    exact List.count_eq_zero.mp (by omega)
  have hsplit : split64 (sepOf win) (quoted s) = quoted (a' ++ (sepOf win ++ u)) := by
    rw [h2, hu, quoted_eq, esc_id]
    · simp
    · simp only [List.mem_append, not_or]
      exact ⟨fun hm => hq (by rw [hs3]; simp [hm]), hsq, hjq⟩
  refine ⟨a' ++ (sepOf win ++ u), ?_, ?_, ?_⟩
  · intro h0
    have := congrArg List.length h0
    rw [hs3] at this
    simp only [List.length_append] at this
    omega
  · rw [hs3]
    simp only [List.length_append]
    omega
  · unfold writeRead
    rw [hio, hsplit]
    generalize a' ++ (sepOf win ++ u) = s'
    unfold decodeFile
    have : decodeLines PS.init (lines ('{' :: (quoted s' ++ ['}']))) = Run (closed [] [] [.str (quoted s')]) (some '}') [] := by
      have e1 := txt_open [] [] none false (quoted s' ++ ['}']) (by simp [quoted])
      unfold Txt at e1
      rw [PS.init, e1]
      obtain ⟨p', e2⟩ := run_quoted s' [] [[]] (some []) false none '}' [] (by decide)
      rw [e2, run_close_val _ _ _ _ _ _ _ (.inr rfl)]
      rfl
    rw [this]
    rfl

set_option maxRecDepth 4000 in
/-- such literals exist: sixty-four letters -/
example : TakenForBase64 (quoted (List.replicate 64 'A')) := by decide

/-! ## C12 -/

/-- **C12 (layout).**  A binary of at least 72 characters is written as a first line of 72 characters, then lines of
exactly 64 characters, then a last line of fewer than 64 (possibly none). -/
theorem C12_layout (w : Text) (hlen : 72 ≤ ("#base64:".toList ++ w).length) :
    ∃ (first : Text) (full : List Text) (last : Text),
      encRoot [[.str ("#base64:".toList ++ w)]] =
        '{' :: first ++ (full ++ [last]).flatMap (fun l => '\r' :: '\n' :: l) ++ ['}'] ∧
      first.length = 72 ∧ (∀ l ∈ full, l.length = 64) ∧ last.length < 64 ∧
      first ++ full.flatten ++ last = "#base64:".toList ++ w := by
  have key : ∀ n (t : Text), t.length ≤ n → ∃ full last, tail64 ['\r', '\n'] t = (full ++ [last]).flatMap (fun l => '\r' :: '\n' :: l) ∧
      (∀ l ∈ full, l.length = 64) ∧ last.length < 64 ∧ full.flatten ++ last = t := by
    intro n
    induction n with
    | zero =>
      intro t hn
      have : t = [] := List.eq_nil_of_length_eq_zero (by omega)
      subst this
      exact ⟨[], [], by rw [tail64]; simp, by simp, by simp, by simp⟩
    | succ n ih =>
      intro t hn
      by_cases h : 64 ≤ t.length
      · obtain ⟨full, last, h1, h2, h3, h4⟩ := ih (t.drop 64) (by simp; omega)
        refine ⟨t.take 64 :: full, last, ?_, ?_, h3, ?_⟩
        · rw [tail64, if_pos h, h1]; simp
        · intro l hl
          rcases List.mem_cons.mp hl with rfl | hl
          · simp; omega
          · exact h2 l hl
        · rw [List.flatten_cons, List.append_assoc, h4, List.take_append_drop]
      · exact ⟨[], t, by rw [tail64, if_neg h]; simp, by simp, by omega, by simp⟩
  have p1 : "#base64:".toList.isPrefixOf ("#base64:".toList ++ w) = true := by
    rw [List.isPrefixOf_iff_prefix]; exact List.prefix_append _ _
  obtain ⟨full, last, h1, h2, h3, h4⟩ := key _ (("#base64:".toList ++ w).drop 72) (Nat.le_refl _)
  have e1 : encStr ['\r', '\n'] ("#base64:".toList ++ w) =
      ("#base64:".toList ++ w).take 72 ++ tail64 ['\r', '\n'] (("#base64:".toList ++ w).drop 72) := by
    unfold encStr
    rw [p1, if_pos rfl, if_pos hlen]
  refine ⟨("#base64:".toList ++ w).take 72, full, last, ?_, ?_, h2, h3, ?_⟩
  · show '{' :: encStr ['\r', '\n'] ("#base64:".toList ++ w) ++ ['}'] = _
    rw [e1, h1]
    simp
  · rw [List.length_take]; omega
  · rw [List.append_assoc, h4, List.take_append_drop]

/-- **C12 (round trip, partial).**  An embedded binary stored over several lines (at least 72 characters) or on one line
parses back to the same value, in the root list or as any element after the first two of a list.  Missing: the two cases
below.  (Deeper positions: `C10_round_trip`, whose trees may contain such binaries anywhere.) -/
theorem C12_binary_survives_partial (win : Bool) (e : Text) (h : Blob e) (x y : Text) (pre : List Val)
    (hx : Atom x) (hx0 : x ≠ []) (hy : Atom y) (hpre : WFElems false pre) :
    writeRead win [[.str e]] = .ok [[.str e]] ∧
    writeRead win [.str x :: .str y :: .list [.str e] :: .str x :: pre] =
      .ok [.str x :: .str y :: .list [.str e] :: .str x :: pre] := by
  constructor
  · apply C10_round_trip win _ (by simp)
    refine ⟨?_, ?_⟩
    · intro l hl
      simp only [List.mem_singleton] at hl
      subst hl
      exact .inl ⟨e, rfl, h⟩
    · simp [NotBigBinary]
  · apply C10_round_trip win _ (by simp)
    refine ⟨?_, ?_⟩
    · intro l hl
      simp only [List.mem_singleton] at hl
      subst hl
      exact .inr ⟨by simp, ⟨by simp, .inl hx⟩, ⟨fun _ => rfl, .inl hy⟩, .inl ⟨e, rfl, h⟩, ⟨fun h => absurd h hx0, .inl hx⟩, hpre⟩
    · unfold NotBigBinary
      split
      · rename_i heq
        simp only [List.cons.injEq] at heq
        obtain ⟨⟨_, rfl, _⟩, _⟩ := heq
        simp [HasBlob]
      · trivial

example : Blob ("##base64:".toList ++ "QUJD".toList) ∧ Atom "7".toList ∧ WFElems false [.list [.str "0".toList]] :=
  ⟨⟨_, by decide, .inl rfl⟩, atom_raw _ (by decide) (by decide) (by decide),
    .inr ⟨by simp, ⟨fun _ => rfl, .inl (atom_raw _ (by decide) (by decide) (by decide))⟩, trivial⟩, trivial⟩

/-- **C12 is false of the code for short binaries.**  A `#base64:` value of fewer than 72 characters comes back as a
`##base64:` value (the two are written identically). -/
theorem C12_short_binary_changes (win : Bool) (w : Text) (hw : ∀ c ∈ w, c ≠ '}' ∧ c ≠ '\n' ∧ c ≠ '\r')
    (hlen : ("#base64:".toList ++ w).length < 72) :
    writeRead win [[.str ("#base64:".toList ++ w)]] = .ok [[.str ("##base64:".toList ++ w)]] := by
  have hb : Blob ("##base64:".toList ++ w) := ⟨w, hw, .inl rfl⟩
  have h := (C10_round_trip win [[.str ("##base64:".toList ++ w)]] (by simp)
    ⟨by intro l hl; simp only [List.mem_singleton] at hl; subst hl; exact .inl ⟨_, rfl, hb⟩, by simp [NotBigBinary]⟩)
  have henc : encRoot [[.str ("#base64:".toList ++ w)]] = encRoot [[.str ("##base64:".toList ++ w)]] := by
    show '{' :: encStr ['\r', '\n'] ("#base64:".toList ++ w) ++ ['}'] = '{' :: encStr ['\r', '\n'] ("##base64:".toList ++ w) ++ ['}']
    have e1 : encStr ['\r', '\n'] ("#base64:".toList ++ w) = "#base64:".toList ++ w := by
      unfold encStr
      rw [if_pos (by rw [List.isPrefixOf_iff_prefix]; exact List.prefix_append _ _), if_neg (by omega),
        List.take_of_length_le (by omega), List.append_nil]
    have e2 : encStr ['\r', '\n'] ("##base64:".toList ++ w) = "#base64:".toList ++ w := by
      unfold encStr
      rw [if_neg (by rw [show "#base64:".toList.isPrefixOf ("##base64:".toList ++ w) = false from rfl]; decide), if_pos (by rw [List.isPrefixOf_iff_prefix]; exact List.prefix_append _ _)]
      rfl
    rw [e1, e2]
  unfold writeRead at h ⊢
  rw [henc]
  exact h

example : (∀ c ∈ "QUJD".toList, c ≠ '}' ∧ c ≠ '\n' ∧ c ≠ '\r') ∧ ("#base64:".toList ++ "QUJD".toList).length < 72 := by
  decide

/-- **C12, whole-file binaries.**  A file whose value is `{1,{#base64...` is reported as one big binary (the caller then
keeps the file as it is), whatever follows. -/
theorem C12_big_binary_reported (rest : Text) :
    decodeFile ("{1,\n{#base64".toList ++ rest) = .error .bigBase64 := by
  obtain ⟨l, ls, hl⟩ := lines_nonempty ("{#base64".toList ++ rest) (by simp)
  have hl2 : lines ("{1,\n{#base64".toList ++ rest) = "{1,\n".toList :: l :: ls := by
    have := lines_append "{1,".toList ("{#base64".toList ++ rest) (by decide)
    rw [hl] at this
    exact this
  have hp : ∃ r, l = "{#base64".toList ++ r := by
    cases hr : lines rest with
    | nil =>
      have := lines_eq_nil rest hr
      subst this
      exact ⟨[], by
        have h : lines ("{#base64".toList ++ []) = ["{#base64".toList] := by decide
        rw [h] at hl
        injection hl with h1 _
        rw [← h1]; rfl⟩
    | cons a as =>
      have h := lines_prefix "{#base64".toList a as rest (by decide) hr
      rw [h] at hl
      injection hl with h1 _
      exact ⟨a, h1.symm⟩
  obtain ⟨r, rfl⟩ := hp
  unfold decodeFile
  rw [hl2]
  rfl

/-! ## C14 -/

/-- **C14, partial (unterminated strings).**  A text with an unpaired quote - for instance any text cut inside a string
literal - is reported as an error, whatever else it contains, if it has no embedded binary and no 64-character token at
the end of a line.  Missing: cuts outside string literals, see below. -/
theorem C14_unterminated_string_partial (t : Text) (h1 : ¬ "{#base64".toList <:+: t)
    (h2 : ∀ w, w.length = 64 → (∀ c ∈ w, c ≠ ',' ∧ c ≠ '}' ∧ c ≠ '"' ∧ c ≠ '\n') → ¬ (w ++ ['\n']) <:+: t)
    (hodd : t.count '"' % 2 = 1) : ∃ e, decodeFile t = .error e :=
  odd_quotes_error t ⟨h1, h2⟩ hodd

example : ¬ "{#base64".toList <:+: "{1,\n{\"a".toList ∧
    (∀ w : Text, w.length = 64 → (∀ c ∈ w, c ≠ ',' ∧ c ≠ '}' ∧ c ≠ '"' ∧ c ≠ '\n') → ¬ (w ++ ['\n']) <:+: "{1,\n{\"a".toList) ∧
    "{1,\n{\"a".toList.count '"' % 2 = 1 := by
  refine ⟨fun hi => absurd hi.length_le (by decide), ?_, by decide⟩
  intro w hw _ hi
  have := hi.length_le
  simp [hw] at this

/-- **C14 is false of the code for unclosed braces.**  A text cut after any raw token of a list is accepted: the list is
returned without its last value and no error is reported. -/
theorem C14_unclosed_brace_accepted (a b : Text)
    (ha : a.head? ≠ some '#') (ha2 : ∀ c ∈ a, c ≠ ',' ∧ c ≠ '}' ∧ c ≠ '"' ∧ c ≠ '\n')
    (hb : ∀ c ∈ b, c ≠ ',' ∧ c ≠ '}' ∧ c ≠ '"' ∧ c ≠ '\n') :
    decodeFile ('{' :: a ++ ',' :: b) = .ok [[.str a]] := by
  unfold decodeFile
  have e1 := txt_open [] [] none false (a ++ ',' :: b) (by cases a <;> simp_all)
  unfold Txt at e1
  rw [List.cons_append, PS.init, e1]
  have e2 : ∃ p', Run ⟨.param, [], [[]], some [], false⟩ none (a ++ ',' :: b) =
      Run ⟨.param, [], [[]], some a, false⟩ p' (',' :: b) := by
    by_cases h : a = []
    · subst h; exact ⟨_, rfl⟩
    · exact run_raws _ _ _ _ rfl h ha2
  obtain ⟨p', e2⟩ := e2
  rw [e2, run_comma_val _ _ _ _ _ _ _ (.inl rfl)]
  by_cases h : b = []
  · subst h; rfl
  · obtain ⟨p2, e3⟩ := run_raws ⟨.param, [], [[] ++ [valOf (some a)]], some [], false⟩ (some ',') b [] rfl h hb
    rw [List.append_nil] at e3
    rw [e3]
    rfl

/-- in particular a proper prefix of a serialised tree is accepted as another tree -/
theorem C14_prefix_accepted : decodeFile "{1,2".toList = .ok [[.str ['1']]] ∧
    "{1,2".toList ++ ['}'] = encRoot [[.str ['1'], .str ['2']]] := by decide

end V8.Brace
