import Verif.ExtExc
/-
Property theorems C35 about the model Verif/ExtExc.lean.
-/
namespace V8.ExtExc

/-- the handler is a plain `raise ExtException(parent=err, ...)` without a message of its own -/
def Plain (a : Args) : Prop := a.cls = .base ∧ a.message = none

/-- **C35, class.**  Through any number of handlers without messages of their own an error keeps its class. -/
theorem C35_class (ws : List (Option Entry × Args)) (h : ∀ w ∈ ws, Plain w.2) (e : Exc) : (wraps ws e).cls = e.cls := by
  induction ws generalizing e with
  | nil => rfl
  | cons w r ih =>
    obtain ⟨i, a⟩ := w
    obtain ⟨h1, h2⟩ := h (i, a) List.mem_cons_self
    rw [wraps, ih (fun w hw => h w (List.mem_cons_of_mem _ hw)), wrap]
    show newCls a (some e) = e.cls
    rw [newCls]
    by_cases hb : e.cls = .base
    · rw [if_neg (by simp [hb]), hb]; exact h1
    · rw [if_pos ⟨hb, h2, h1⟩]

/-- **C35, class lost.**  A handler of class ExtException with a message of its own (even an empty one) makes the error a plain ExtException. -/
theorem C35_class_lost (i : Option Entry) (a : Args) (e : Exc) (h : a.cls = .base) (hm : a.message ≠ none) : (wrap i a e).cls = .base := by
  show newCls a (some e) = .base
  rw [newCls, if_neg (fun hh => hm hh.2.1), h]

theorem orDefault_given (c : Cls) (m : Option Text) (h : given m = true) : orDefault c m = m := by
  rw [orDefault, if_pos h]

theorem given_or (c : Cls) (m : Option Text) : given (orDefault c m) = true ∨ orDefault c m = c.default := by
  rw [orDefault]
  by_cases h : given m = true
  · left; rw [if_pos h, h]
  · right; rw [if_neg h]

/-- **C35, message.**  Through any number of handlers without messages of their own an error keeps its message, detail and code. -/
theorem C35_message (ws : List (Option Entry × Args)) (h : ∀ w ∈ ws, Plain w.2) (e : Exc) (he : given e.message = true) :
    (wraps ws e).message = e.message ∧ (wraps ws e).detail = e.detail ∧ (wraps ws e).code = e.code := by
  induction ws generalizing e with
  | nil => exact ⟨rfl, rfl, rfl⟩
  | cons w r ih =>
    obtain ⟨i, a⟩ := w
    obtain ⟨h1, h2⟩ := h (i, a) List.mem_cons_self
    have hm : (wrap i a e).message = e.message := by
      show orDefault _ (if given a.message = true then a.message else e.message) = _
      rw [h2]
      simp only [given, Bool.false_eq_true, if_false]
      exact orDefault_given _ _ he
    have hd : (wrap i a e).detail = e.detail ∧ (wrap i a e).code = e.code := by
      constructor
      · show (if given a.message = true then a.detail else e.detail) = _
        rw [h2]; rfl
      · show (if given a.message = true then a.code else e.code) = _
        rw [h2]; rfl
    obtain ⟨k1, k2, k3⟩ := ih (fun w hw => h w (List.mem_cons_of_mem _ hw)) (wrap i a e) (by rw [hm]; exact he)
    rw [wraps]
    exact ⟨k1.trans hm, k2.trans hd.1, k3.trans hd.2⟩

/-- **C35, message overridden.**  The message of the last handler that gives one is the message of the error. -/
theorem C35_message_override (i : Option Entry) (a : Args) (ws : List (Option Entry × Args)) (h : ∀ w ∈ ws, Plain w.2) (e : Exc)
    (hm : given a.message = true) :
    (wraps ((i, a) :: ws) e).message = a.message ∧ (wraps ((i, a) :: ws) e).detail = a.detail ∧ (wraps ((i, a) :: ws) e).code = a.code := by
  have h1 : (wrap i a e).message = a.message := by
    show orDefault _ (if given a.message = true then a.message else e.message) = _
    rw [if_pos hm]; exact orDefault_given _ _ hm
  have h2 : (wrap i a e).detail = a.detail := by
    show (if given a.message = true then a.detail else e.detail) = _
    rw [if_pos hm]
  have h3 : (wrap i a e).code = a.code := by
    show (if given a.message = true then a.code else e.code) = _
    rw [if_pos hm]
  rw [wraps]
  obtain ⟨k1, k2, k3⟩ := C35_message ws h (wrap i a e) (by rw [h1]; exact hm)
  exact ⟨k1.trans h1, k2.trans h2, k3.trans h3⟩

/-- **C35, history.**  The history of an error is never shortened or changed by the handlers it goes through. -/
theorem C35_history_kept (ws : List (Option Entry × Args)) (e : Exc) : e.stack <+: (wraps ws e).stack := by
  induction ws generalizing e with
  | nil => exact ⟨[], by simp [wraps]⟩
  | cons w r ih =>
    obtain ⟨i, a⟩ := w
    rw [wraps]
    refine List.IsPrefix.trans ?_ (ih (wrap i a e))
    show e.stack <+: addParent i e
    rw [addParent]
    by_cases hc : given e.action = false ∨ lastIs e.stack e.action = true
    · rw [if_pos hc]; exact ⟨[], by simp⟩
    · rw [if_neg hc]; exact ⟨_, rfl⟩

/-- the actions in the history of an error with the current one -/
def actions (e : Exc) : List (Option Text) := e.stack.map (·.action)

/-- no element equals its neighbour -/
def NoRepeat : List (Option Text) → Prop
  | a :: b :: r => a ≠ b ∧ NoRepeat (b :: r)
  | _ => True

/-- **C35, one entry per level.**  If every level names its action, and each another one than the level below it, the history has exactly
one entry for each level, in order. -/
theorem C35_one_entry (ws : List (Option Entry × Args)) (e : Exc)
    (hg : given e.action = true) (hl : lastIs e.stack e.action = false)
    (h : ∀ w ∈ ws, given w.2.action = true)
    (hd : NoRepeat (e.action :: ws.map (fun w => w.2.action))) :
    actions (wraps ws e) = actions e ++ (e.action :: ws.map (fun w => w.2.action)).dropLast := by
  induction ws generalizing e with
  | nil => simp [wraps]
  | cons w r ih =>
    obtain ⟨i, a⟩ := w
    rw [wraps]
    have ha : (wrap i a e).action = a.action := rfl
    have hs : (wrap i a e).stack = addParent i e := rfl
    have hs' : actions (wrap i a e) = actions e ++ [e.action] := by
      rw [actions, hs, addParent, if_neg (by simp [hg, hl]), List.map_append]
      rfl
    simp only [List.map_cons, NoRepeat] at hd
    rw [ih]
    · rw [hs', ha]
      simp [List.dropLast_cons_of_ne_nil]
    · rw [ha]; exact h (i, a) List.mem_cons_self
    · rw [hs, addParent, if_neg (by simp [hg, hl]), lastIs]
      simp only [List.getLast?_concat]
      rw [ha]
      simpa using hd.1
    · exact fun w hw => h w (List.mem_cons_of_mem _ hw)
    · rw [ha]; exact hd.2

/-- **C35, first entry.**  An ordinary exception becomes the detail of the error and the first entry of its history, with the action of the
handler that caught it, and that handler is not recorded a second time. -/
theorem C35_from_plain (info : Entry) (a : Args) (text : Text) (hd : given a.detail = false) (ha : given a.action = true)
    (i : Option Entry) (b : Args) :
    (wrapPlain (some info) a text).detail = some text ∧ actions (wrapPlain (some info) a text) = [a.action] ∧
    actions (wrap i b (wrapPlain (some info) a text)) = [a.action] := by
  refine ⟨?_, ?_, ?_⟩
  · show (if given a.detail = true then a.detail else some text) = _
    rw [hd]; rfl
  · show ([if given a.action = true then { info with action := a.action } else info].map (·.action)) = _
    rw [ha]; rfl
  · show (addParent i (wrapPlain (some info) a text)).map (·.action) = _
    have hs : (wrapPlain (some info) a text).stack = [{ info with action := a.action }] := by
      show ([if given a.action = true then { info with action := a.action } else info]) = _
      rw [ha]; rfl
    rw [addParent, if_pos, hs]
    · rfl
    · right
      have ha2 : (wrapPlain (some info) a text).action = a.action := rfl
      rw [hs, ha2, lastIs]
      exact decide_eq_true rfl

/-- **C35, dump.**  A name in the dump of a wrapped error has the value the handler gave it, or else the value it had. -/
theorem C35_dump (i : Option Entry) (a : Args) (e : Exc) (k : Text) :
    (wrap i a e).dump.lookup k = (a.dump.lookup k).or (e.dump.lookup k) := by
  show (mergeDump a.dump e.dump).lookup k = _
  rw [mergeDump]
  have h1 : ∀ l r : List (Text × Text), (l ++ r).lookup k = (l.lookup k).or (r.lookup k) := by
    intro l r
    induction l with
    | nil => simp
    | cons x l ih =>
      obtain ⟨p, q⟩ := x
      rw [List.cons_append, List.lookup_cons, List.lookup_cons]
      by_cases hk : (k == p) = true
      · simp [hk]
      · simp [hk, ih]
  rw [h1]
  cases hd : a.dump.lookup k with
  | some v => simp
  | none =>
    simp only [Option.none_or]
    induction e.dump with
    | nil => rfl
    | cons x l ih =>
      obtain ⟨p, q⟩ := x
      rw [List.filter_cons]
      by_cases hk : (k == p) = true
      · rw [beq_iff_eq] at hk
        subst hk
        simp [hd]
      · by_cases hp : (a.dump.lookup p).isNone = true
        · rw [if_pos hp, List.lookup_cons, List.lookup_cons]
          simp [hk, ih]
        · rw [if_neg hp, List.lookup_cons]
          simp [hk, ih]

def argsOf (action : String) : Args := ⟨.base, none, none, none, some action.toList, []⟩

/-- an error of a subclass that goes through two handlers: the hypotheses of the theorems hold -/
example : let e := raise ⟨.sub "ExtNotImplemented".toList (some "Not implemented".toList), none, some "Неизвестный тип макета".toList,
      some "9".toList, some "Template.decode".toList, []⟩
    let ws := [(none, argsOf "Decoder.decode_include"), (none, argsOf "extract")]
    (∀ w ∈ ws, Plain w.2) ∧ given e.message = true ∧ given e.action = true ∧ lastIs e.stack e.action = false ∧
    NoRepeat (e.action :: ws.map (fun w => w.2.action)) ∧ (wraps ws e).cls = e.cls ∧
    actions (wraps ws e) = [some "Template.decode".toList, some "Decoder.decode_include".toList] := by
  refine ⟨?_, by decide +kernel, by decide +kernel, by decide +kernel,
    ⟨by decide +kernel, by decide +kernel, trivial⟩, by decide +kernel, by decide +kernel⟩
  intro w hw
  simp only [List.mem_cons, List.not_mem_nil, or_false] at hw
  rcases hw with rfl | rfl <;> exact ⟨rfl, rfl⟩

end V8.ExtExc
