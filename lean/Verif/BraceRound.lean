import Verif.BraceMain
namespace V8.Brace

theorem encElems_cons (sep : Text) (v : Val) (r : List Val) (hr : r ≠ []) :
    encElems sep (v :: r) = encVal sep false v ++ ',' :: encElems sep r := by
  cases r with
  | nil => exact absurd rfl hr
  | cons w r => rw [encElems]

theorem isEmpty_cons_false (r : List Val) (hr : r ≠ []) : r.isEmpty = false := by
  cases r with
  | nil => exact absurd rfl hr
  | cons w r => rfl

/-- text of a well-formed list does not start like a binary -/
theorem encElems_head (sep : Text) (l : List Val) (hl : WFElems false l) (t : Text) (hne : l ≠ []) (ht : t.head? ≠ some '#') :
    (encElems sep l ++ t).head? ≠ some '#' := by
  have hv : ∀ v last t', WFVal false last v → t'.head? ≠ some '#' → (encVal sep last v ++ t').head? ≠ some '#' := by
    intro v last t' hv ht'
    cases v with
    | none => simpa [encVal] using ht'
    | list l => simp [encVal]
    | str e =>
      simp only [WFVal] at hv
      simp only [encVal]
      rcases hv.2 with h | ⟨_, h⟩
      · rw [encStr_atom _ _ h]
        rcases h.1 with ⟨s, _, rfl⟩ | ⟨h1, _⟩
        · simp [quoted]
        · cases e with
          | nil => simpa using ht'
          | cons c e => simpa using h1
      · rw [encStr_long _ _ h]
        obtain ⟨a, ch, _, h2, h3, h4, _⟩ := split64_chunks sep e.length e (Nat.le_refl _) h.1.1
        cases a with
        | nil => simp at h4
        | cons c a =>
          rw [h2]
          have := longB64_clean e h c (by rw [← h3]; simp)
          simpa using this.2.2.2.2.2.2
  cases l with
  | nil => exact absurd rfl hne
  | cons v r =>
    rw [WFElems] at hl
    cases r with
    | nil => simp only [encElems]; exact hv v true t hl.1 ht
    | cons w r =>
      rw [encElems, List.append_assoc]
      exact hv v false _ hl.1 (by simp)

theorem BigCtx_cons (done : List (List Val)) (x : List Val) (st : List (List Val)) (h : st ≠ []) :
    BigCtx done (x :: st) ↔ BigCtx done st := by
  unfold BigCtx
  cases st with
  | nil => exact absurd rfl h
  | cons y r => rw [List.getLast?_cons_cons]

theorem hasBlobs_mem (l : List Val) (v : Val) (hm : v ∈ l) (hv : HasBlob v) : HasBlobs l := by
  induction l with
  | nil => cases hm
  | cons w l ih =>
    rw [HasBlobs]
    rcases List.mem_cons.mp hm with rfl | h
    · exact .inl hv
    · exact .inr (ih h)

theorem blob_head (e : Text) (h : Blob e) : e.head? = some '#' := by
  obtain ⟨w, _, rfl | ⟨rfl, _⟩⟩ := h <;> rfl

theorem run_elems (win : Bool) (n : Nat) : ∀ (l : List Val), sizeOf l ≤ n → ∀ prev, l ≠ [] → WFElems prev l →
    ∀ done x st p k, k.head? ≠ some '"' →
    (∀ l1 v l2, l = l1 ++ v :: l2 → HasBlob v → ¬ BigCtx done ((x ++ l1) :: st)) →
    Run (PS.mk .param done (x :: st) (cur0 prev) false) p (encElems (sepOf win) l ++ '}' :: k) =
      Run (closed done st (x ++ l)) none k := by
  induction n with
  | zero => intro l hl; cases l <;> simp at hl
  | succ n ih =>
    intro l hsz prev hne hwf done x st p k hk hbig
    cases l with
    | nil => exact absurd rfl hne
    | cons v r =>
      rw [WFElems] at hwf
      obtain ⟨hv, hr⟩ := hwf
      simp only [List.cons.sizeOf_spec] at hsz
      -- a nested list
      have hlist : ∀ l', v = .list l' → ∀ k', k'.head? ≠ some '"' →
          Txt (PS.mk .param done (x :: st) (cur0 prev) false) ('{' :: (encElems (sepOf win) l' ++ '}' :: k')) =
            Run (PS.mk .param done ((x ++ [v]) :: st) none true) none k' := by
        intro l' hvl k' hk'
        subst hvl
        have hbl : HasBlob (.list l') → ¬ BigCtx done (x :: st) := by
          intro h; simpa using hbig [] (.list l') r rfl h
        simp only [WFVal] at hv
        rcases hv with ⟨e, rfl, hb⟩ | ⟨hne', hwf'⟩
        · have : encElems (sepOf win) [.str e] = encStr (sepOf win) e := rfl
          rw [this, txt_blob win e hb _ _ _ _ hk' (hbl (by rw [HasBlob]; exact .inl ⟨e, rfl, blob_head e hb⟩))]
          rfl
        · rw [txt_open _ _ _ _ _ (encElems_head _ _ hwf' _ hne' (by simp))]
          simp only [Val.list.sizeOf_spec] at hsz
          have := ih l' (by omega) false hne' hwf' done [] (x :: st) none k' hk' (by
            intro l1 v' l2 hl' hb'
            rw [List.nil_append, BigCtx_cons _ _ _ (by simp)]
            apply hbl
            rw [HasBlob]
            exact .inr (hasBlobs_mem _ v' (by rw [hl']; simp) hb'))
          rw [show cur0 false = some [] from rfl] at this
          rw [this]
          rfl
      by_cases hrn : r = []
      · subst hrn
        simp only [encElems]
        cases v with
        | none =>
          simp only [WFVal] at hv
          simp only [encVal, List.nil_append]
          rw [run_close_val _ _ _ _ _ _ _ (.inl rfl), run_prev _ _ _ hk, hv]
          rfl
        | str e =>
          simp only [WFVal, List.isEmpty_nil, true_and] at hv
          simp only [encVal]
          rcases hv.2 with h | h
          · rw [encStr_atom _ _ h]
            obtain ⟨m, p', hm, hrun⟩ := run_atom prev e hv.1 h done (x :: st) p '}' k (.inr rfl)
            rw [hrun, run_close_val _ _ _ _ _ _ _ hm, run_prev _ _ _ hk]
            rfl
          · rw [encStr_long _ _ h, run_longB64 win prev e h _ _ _ _ _ hk]
        | list l' =>
          have e : encVal (sepOf win) true (.list l') ++ '}' :: k =
              '\n' :: ('{' :: (encElems (sepOf win) l' ++ '}' :: ('\n' :: '}' :: k))) := by
            simp [encVal]
          rw [e, run_nl _ _ _ rfl, hlist l' rfl _ (by simp), run_nl _ _ _ rfl, txt_close_brace _ _ _ _ _ hk]
      · have hemp := isEmpty_cons_false r hrn
        rw [hemp] at hv
        have hrec : ∀ p, Run (PS.mk .param done ((x ++ [v]) :: st) (cur0 v.isList) false) p (encElems (sepOf win) r ++ '}' :: k) =
            Run (closed done st (x ++ v :: r)) none k := by
          intro p
          have := ih r (by omega) v.isList hrn hr done (x ++ [v]) st p k hk (by
            intro l1 v' l2 hl' hb'
            have := hbig (v :: l1) v' l2 (by rw [hl']; rfl) hb'
            simpa using this)
          rw [this]
          simp
        rw [encElems_cons _ _ _ hrn, List.append_assoc, List.cons_append]
        cases v with
        | none =>
          simp only [WFVal] at hv
          simp only [encVal, List.nil_append]
          rw [run_comma_val _ _ _ _ _ _ _ (.inl rfl), hv]
          exact hrec _
        | str e =>
          simp only [WFVal, Bool.false_eq_true, false_and, or_false] at hv
          simp only [encVal]
          rw [encStr_atom _ _ hv.2]
          obtain ⟨m, p', hm, hrun⟩ := run_atom prev e hv.1 hv.2 done (x :: st) p ',' _ (.inl rfl)
          rw [hrun, run_comma_val _ _ _ _ _ _ _ hm]
          exact hrec _
        | list l' =>
          have e : encVal (sepOf win) false (.list l') ++ ',' :: (encElems (sepOf win) r ++ '}' :: k) =
              '\n' :: ('{' :: (encElems (sepOf win) l' ++ '}' :: (',' :: (encElems (sepOf win) r ++ '}' :: k)))) := by
            simp [encVal]
          rw [e, run_nl _ _ _ rfl, hlist l' rfl _ (by simp), run_comma_brace]
          exact hrec _

/-- a root list from the start of its line -/
theorem txt_root (win : Bool) (l : List Val) (hl : WFRoot l) (done cur k) (hk : k.head? ≠ some '"')
    (hbig : ∀ v r, l = .str ['1'] :: v :: r → done = [] → ¬ HasBlob v) :
    Txt (PS.mk .param done [] cur false) (encObject (sepOf win) l ++ k) = Run (PS.mk .param (done ++ [l]) [] none true) none k := by
  have e0 : encObject (sepOf win) l ++ k = '{' :: (encElems (sepOf win) l ++ '}' :: k) := by simp [encObject]
  rw [e0]
  clear e0
  unfold WFRoot at hl
  simp only [WFVal] at hl
  rcases hl with ⟨e, rfl, hb⟩ | ⟨hne, hwf⟩
  · have : encElems (sepOf win) [.str e] = encStr (sepOf win) e := rfl
    rw [this, txt_blob win e hb _ _ _ _ hk (by simp [BigCtx])]
    rfl
  · rw [txt_open _ _ _ _ _ (encElems_head _ _ hwf _ hne (by simp))]
    have := run_elems win _ l (Nat.le_refl _) false hne hwf done [] [] none k hk (by
      rintro l1 v l2 hl' hb ⟨hd, h1⟩
      simp only [List.nil_append, List.getLast?_singleton, Option.some.injEq] at h1
      subst h1
      exact hbig v l2 hl' hd hb)
    rw [show cur0 false = some [] from rfl] at this
    rw [this]
    rfl

theorem txt_roots (win : Bool) (d : List (List Val)) (hd : ∀ l ∈ d, WFRoot l) (hne : d ≠ []) (done cur)
    (hbig : done = [] → NotBigBinary d) :
    Txt (PS.mk .param done [] cur false) (encRootWith (sepOf win) d) = .ok (PS.mk .param (done ++ d) [] none true) := by
  induction d generalizing done cur with
  | nil => exact absurd rfl hne
  | cons l d ih =>
    have hb : ∀ v r, l = .str ['1'] :: v :: r → done = [] → ¬ HasBlob v := by
      rintro v r rfl hd'
      have := hbig hd'
      simpa [NotBigBinary] using this
    cases d with
    | nil =>
      have := txt_root win l (hd l (by simp)) done cur [] (by simp) hb
      simp only [List.append_nil] at this
      rw [encRootWith, this, run_nil]
    | cons l2 d =>
      rw [encRootWith, txt_root win l (hd l (by simp)) done cur _ (by simp) hb, run_comma_brace, run_nl _ _ _ rfl,
        ih (fun l' h => hd l' (by simp [h])) (by simp) _ _ (by intro h; simp at h)]
      simp

/-! ### new-line translation -/

theorem universal_clean (a b : Text) (h : '\r' ∉ a) : universal (a ++ b) = a ++ universal b := by
  induction a with
  | nil => rfl
  | cons c a ih =>
    simp only [List.mem_cons, not_or] at h
    rw [List.cons_append, universal]
    · rw [ih h.2]; rfl
    · intro t h1; exact absurd h1.symm h.1
    · intro h1; exact absurd h1.symm h.1

theorem io_clean (win : Bool) (a b : Text) (h : '\r' ∉ a) : io win (a ++ b) = a ++ io win b := by
  cases win
  · exact universal_clean a b h
  · unfold io osWrite
    simp only [if_true]
    induction a with
    | nil => rfl
    | cons c a ih =>
      simp only [List.mem_cons, not_or] at h
      simp only [List.cons_append, List.flatMap_cons]
      by_cases hc : c = '\n'
      · rw [if_pos hc]
        simp only [List.cons_append, List.nil_append]
        rw [universal, ih h.2, hc]
      · rw [if_neg hc]
        simp only [List.cons_append, List.nil_append]
        rw [universal, ih h.2]
        · intro t h1; exact absurd h1.symm h.1
        · intro h1; exact absurd h1.symm h.1

theorem io_sep (win : Bool) (b : Text) : io win (['\r', '\n'] ++ b) = sepOf win ++ io win b := by
  cases win
  · simp [io, osWrite, universal, sepOf, sepTail]
  · simp [io, osWrite, sepOf, sepTail]
    rw [universal, universal]
    intro t h
    exact absurd (List.cons.inj h).1 (by decide)

theorem io_joinC (win : Bool) (ch : List Text) (h : ∀ w ∈ ch, '\r' ∉ w) (b : Text) :
    io win (joinC ['\r', '\n'] ch ++ b) = joinC (sepOf win) ch ++ io win b := by
  induction ch with
  | nil => rfl
  | cons a r ih =>
    cases r with
    | nil => exact io_clean win a b (h a (by simp))
    | cons c r =>
      simp only [joinC, List.append_assoc]
      rw [io_clean _ _ _ (h a (by simp)), io_sep, ih (fun w hw => h w (by simp [hw]))]

theorem joinC_tail64 (n : Nat) (t : Text) (hn : t.length ≤ n) :
    ∃ ch : List Text, ch ≠ [] ∧ ch.flatten = t ∧ ∀ sep, tail64 sep t = sep ++ joinC sep ch := by
  induction n generalizing t with
  | zero =>
    have : t = [] := List.eq_nil_of_length_eq_zero (by omega)
    subst this
    exact ⟨[[]], by simp, by simp, fun sep => by rw [tail64]; simp [joinC]⟩
  | succ n ih =>
    by_cases h : 64 ≤ t.length
    · obtain ⟨ch, h1, h2, h3⟩ := ih (t.drop 64) (by simp; omega)
      refine ⟨t.take 64 :: ch, by simp, by simp [h2], fun sep => ?_⟩
      rw [tail64, if_pos h, h3]
      cases ch with
      | nil => exact absurd rfl h1
      | cons b r => simp [joinC]
    · exact ⟨[t], by simp, by simp, fun sep => by rw [tail64, if_neg h]; rfl⟩

theorem joinC_split64 (n : Nat) (t : Text) (hn : t.length ≤ n) :
    ∃ ch : List Text, ch ≠ [] ∧ ch.flatten = t ∧ ∀ sep, split64 sep t = joinC sep ch := by
  induction n generalizing t with
  | zero =>
    have : t = [] := List.eq_nil_of_length_eq_zero (by omega)
    subst this
    exact ⟨[[]], by simp, by simp, fun sep => by rw [split64]; simp [joinC]⟩
  | succ n ih =>
    by_cases h : 64 < t.length
    · obtain ⟨ch, h1, h2, h3⟩ := ih (t.drop 64) (by simp; omega)
      refine ⟨t.take 64 :: ch, by simp, by simp [h2], fun sep => ?_⟩
      rw [split64, if_pos h, h3]
      cases ch with
      | nil => exact absurd rfl h1
      | cons b r => simp [joinC]
    · exact ⟨[t], by simp, by simp, fun sep => by rw [split64, if_neg h]; rfl⟩

theorem mem_flatten_clean (ch : List Text) (t : Text) (h : ch.flatten = t) (ht : '\r' ∉ t) : ∀ w ∈ ch, '\r' ∉ w := by
  intro w hw hc
  exact ht (by rw [← h]; exact List.mem_flatten.mpr ⟨w, hw, hc⟩)

/-- strings without carriage return are written so that a read sees the platform's separators -/
theorem io_encStr (win : Bool) (e b : Text) (he : '\r' ∉ e) :
    io win (encStr ['\r', '\n'] e ++ b) = encStr (sepOf win) e ++ io win b := by
  unfold encStr
  split
  · split
    · obtain ⟨ch, h1, h2, h3⟩ := joinC_tail64 _ (e.drop 72) (Nat.le_refl _)
      rw [h3, h3, List.append_assoc, io_clean _ _ _ (fun h => he (List.mem_of_mem_take h)), List.append_assoc, io_sep,
        io_joinC _ _ (mem_flatten_clean ch _ h2 (fun h => he (List.mem_of_mem_drop h)))]
      simp
    · simp only [List.append_nil]
      exact io_clean _ _ _ (fun h => he (List.mem_of_mem_take h))
  · split
    · exact io_clean _ _ _ (fun h => he (List.mem_of_mem_drop h))
    · split
      · obtain ⟨ch, h1, h2, h3⟩ := joinC_split64 _ e (Nat.le_refl _)
        rw [h3, h3, io_joinC _ _ (mem_flatten_clean ch _ h2 he)]
      · exact io_clean _ _ _ he

theorem atom_clean (e : Text) (h : Atom e) : '\r' ∉ e := by
  rcases h.1 with ⟨s, hs, rfl⟩ | ⟨_, h⟩
  · rw [quoted_eq]
    intro hm
    simp only [List.cons_append, List.mem_cons, List.mem_append] at hm
    rcases hm with hm | hm | hm
    · simp at hm
    · exact nl_mem_esc' s '\r' (by decide) hs hm
    · simp at hm
  · intro hm; exact (h _ hm).2.2.2.2 rfl

theorem blob_clean (e : Text) (h : Blob e) : '\r' ∉ e := by
  obtain ⟨w, hw, h⟩ := h
  have hw' : '\r' ∉ w := fun hm => (hw _ hm).2.2 rfl
  rcases h with rfl | ⟨rfl, _⟩ <;>
    (intro hm; rcases List.mem_append.mp hm with h | h; · revert h; decide
     · exact hw' h)

theorem io_elems (win : Bool) (n : Nat) : ∀ (l : List Val), sizeOf l ≤ n → ∀ prev, WFElems prev l → ∀ b,
    io win (encElems ['\r', '\n'] l ++ b) = encElems (sepOf win) l ++ io win b := by
  induction n with
  | zero => intro l hl; cases l <;> simp at hl
  | succ n ih =>
    intro l hsz prev hwf b
    cases l with
    | nil => rfl
    | cons v r =>
      rw [WFElems] at hwf
      simp only [List.cons.sizeOf_spec] at hsz
      have hv : ∀ last b, WFVal prev r.isEmpty v →
          io win (encVal ['\r', '\n'] last v ++ b) = encVal (sepOf win) last v ++ io win b := by
        intro last b hv
        cases v with
        | none => rfl
        | str e =>
          simp only [WFVal] at hv
          simp only [encVal]
          apply io_encStr
          rcases hv.2 with h | ⟨_, h⟩
          · exact atom_clean e h
          · exact fun hm => (longB64_clean e h _ hm).2.2.2.2.1 rfl
        | list l' =>
          have hin : ∀ b, io win (encElems ['\r', '\n'] l' ++ b) = encElems (sepOf win) l' ++ io win b := by
            intro b
            simp only [WFVal] at hv
            rcases hv with ⟨e, rfl, hb⟩ | ⟨_, h⟩
            · exact io_encStr win e b (blob_clean e hb)
            · simp only [Val.list.sizeOf_spec] at hsz
              exact ih l' (by omega) false h b
          simp only [encVal, List.cons_append, List.append_assoc]
          have h1 := io_clean win ['\n', '{'] (encElems ['\r', '\n'] l' ++ ('}' :: ((if last = true then ['\n'] else []) ++ b))) (by decide)
          have h2 := io_clean win ('}' :: (if last = true then ['\n'] else [])) b (by cases last <;> decide)
          simp only [List.cons_append, List.nil_append] at h1 h2
          rw [h1, hin, h2]
      cases r with
      | nil => simp only [encElems]; exact hv true b hwf.1
      | cons w r =>
        rw [encElems, encElems, List.append_assoc, hv false _ hwf.1, List.cons_append]
        have h1 := io_clean win [','] (encElems ['\r', '\n'] (w :: r) ++ b) (by decide)
        simp only [List.cons_append, List.nil_append] at h1
        rw [h1, ih (w :: r) (by simp at hsz ⊢; omega) _ hwf.2 b]
        simp

theorem io_object (win : Bool) (l : List Val) (hl : WFRoot l) (b : Text) :
    io win (encObject ['\r', '\n'] l ++ b) = encObject (sepOf win) l ++ io win b := by
  have hin : ∀ b, io win (encElems ['\r', '\n'] l ++ b) = encElems (sepOf win) l ++ io win b := by
    intro b
    unfold WFRoot at hl
    simp only [WFVal] at hl
    rcases hl with ⟨e, rfl, hb⟩ | ⟨_, h⟩
    · exact io_encStr win e b (blob_clean e hb)
    · exact io_elems win _ l (Nat.le_refl _) false h b
  simp only [encObject, List.cons_append, List.append_assoc, List.nil_append]
  have h1 := io_clean win ['{'] (encElems ['\r', '\n'] l ++ '}' :: b) (by decide)
  have h2 := io_clean win ['}'] b (by decide)
  simp only [List.cons_append, List.nil_append] at h1 h2
  rw [h1, hin, h2]

theorem io_root (win : Bool) (d : List (List Val)) (hd : ∀ l ∈ d, WFRoot l) :
    io win (encRoot d) = encRootWith (sepOf win) d := by
  unfold encRoot
  induction d with
  | nil => cases win <;> rfl
  | cons l d ih =>
    cases d with
    | nil =>
      have := io_object win l (hd l (by simp)) []
      simp only [List.append_nil] at this
      rw [encRootWith, this]
      cases win <;> simp [io, osWrite, universal, encRootWith]
    | cons l2 d =>
      have h1 := io_clean win [',', '\n'] (encRootWith ['\r', '\n'] (l2 :: d)) (by decide)
      simp only [List.cons_append, List.nil_append] at h1
      rw [encRootWith, io_object win l (hd l (by simp)), h1, ih (fun l' h => hd l' (by simp [h]))]
      rfl

theorem decode_root (win : Bool) (d : List (List Val)) (hd : WFFile d) (hne : d ≠ []) :
    decodeFile (encRootWith (sepOf win) d) = .ok d := by
  have h := txt_roots win d hd.1 hne [] none (fun _ => hd.2)
  unfold decodeFile
  unfold Txt at h
  rw [PS.init, h]
  rfl

end V8.Brace
