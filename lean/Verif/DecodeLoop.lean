import Verif.EncodeLemmas
/-
Model of the loop of Decoder.decode: /repo/src/v8unpack/decoder.py:79-107.  Every round hands the tasks to the pool (run_in_pool,
helper.py:192-207) and goes on with the tasks the workers returned; a worker's exception ends the decoding.
-/
namespace V8.Encode

/-- all objects of the tree (decoding has no objects to skip: an object that is listed but cannot be read is an error) -/
def everything (parent : Id) : Forest → List Task
  | .nil => []
  | .cons ty nm uu p kids rest =>
    ⟨parent, ty, nm, uu, p, kids⟩ :: (everything (parent ++ [ty, nm]) kids ++ everything parent rest)

/-- the decoding: running with tasks left and the objects decoded so far, or failed -/
inductive DState where
  | run (tasks log : List Task)
  | failed (msg : Text)

/-- decode_include: decoder.py:91-107: the tasks for the nested objects, or an exception: every exception becomes an ExtException -/
def decodeOne (bad : Task → Bool) (t : Task) : Outcome Task :=
  if bad t then .ext "Ошибка декодирования".toList else .ok (tasksOf t.id t.kids)

/-- one round, `ord` being the order in which the workers finish: decoder.py:85-87 -/
def decodeRound (bad : Task → Bool) (ord log : List Task) : DState :=
  match runInPool (ord.map (decodeOne bad)) [] with
  | .done r => .run r (log ++ ord)
  | .ext m => .failed m
  | .other m => .failed m

/-- all rounds that are possible in a state -/
inductive DStep (bad : Task → Bool) : DState → DState → Prop where
  | mk {tasks log ord : List Task} : tasks ≠ [] → ord.Perm tasks → DStep bad (.run tasks log) (decodeRound bad ord log)

/-- every run comes after finitely many rounds to a state with `Q`, whatever orders the pool delivers -/
inductive DInevitably (bad : Task → Bool) (Q : DState → Prop) : DState → Prop where
  | here {s} : Q s → DInevitably bad Q s
  | step {s} : (∃ s', DStep bad s s') → (∀ s', DStep bad s s' → DInevitably bad Q s') → DInevitably bad Q s

/-! ### lemmas -/

theorem runInPool_ok {α : Type} : ∀ (os : List (Outcome α)) (acc : List α) (g : Outcome α → List α),
    (∀ o ∈ os, o = .ok (g o)) → runInPool os acc = .done (acc ++ os.flatMap g)
  | [], acc, _, _ => by simp [runInPool]
  | o :: os, acc, g, h => by
    have h1 := h o List.mem_cons_self
    have ih := runInPool_ok os (acc ++ g o) g (fun o ho => h o (List.mem_cons_of_mem _ ho))
    rw [h1, runInPool, ih, List.flatMap_cons, ← h1, List.append_assoc]

theorem runInPool_fail {α : Type} : ∀ (os : List (Outcome α)) (acc : List α),
    (∃ o ∈ os, ∀ r, o ≠ .ok r) → ∀ r, runInPool os acc ≠ .done r
  | [], _, h, _ => by obtain ⟨o, ho, _⟩ := h; cases ho
  | .ok r0 :: os, acc, h, r => by
    rw [runInPool]
    refine runInPool_fail os _ ?_ r
    obtain ⟨o, ho, hr⟩ := h
    rcases List.mem_cons.mp ho with rfl | ho
    · exact absurd rfl (hr r0)
    · exact ⟨o, ho, hr⟩
  | .ext m :: os, acc, _, r => by rw [runInPool]; simp
  | .other m :: os, acc, _, r => by rw [runInPool]; simp

theorem everything_eq (p : Id) : ∀ f : Forest,
    (everything p f).Perm (tasksOf p f ++ (tasksOf p f).flatMap (fun t => everything t.id t.kids))
  | .nil => .refl _
  | .cons ty nm uu pr kids rest => by
    rw [everything, tasksOf, List.flatMap_cons, List.cons_append]
    refine List.Perm.cons _ ?_
    refine ((everything_eq p rest).append_left _).trans ?_
    exact (List.perm_append_comm_assoc _ _ _)

theorem decodeRound_good {bad : Task → Bool} {ord log : List Task} (h : ∀ t ∈ ord, bad t = false) :
    decodeRound bad ord log = .run (ord.flatMap (fun t => tasksOf t.id t.kids)) (log ++ ord) := by
  rw [decodeRound, runInPool_ok _ _ (fun o => match o with | .ok r => r | _ => [])]
  · rw [List.nil_append, List.flatMap_map]
    simp only
    congr 1
    apply List.flatMap_congr
    intro t ht
    rw [decodeOne, h t ht]; rfl
  · intro o ho
    obtain ⟨t, ht, rfl⟩ := List.mem_map.mp ho
    rw [decodeOne, h t ht]; rfl

theorem decodeRound_bad {bad : Task → Bool} {ord log : List Task} (h : ∃ t ∈ ord, bad t = true) :
    ∃ m, decodeRound bad ord log = .failed m := by
  obtain ⟨t, ht, hb⟩ := h
  have := runInPool_fail (ord.map (decodeOne bad)) [] ⟨decodeOne bad t, List.mem_map_of_mem ht, by
    intro r; rw [decodeOne, if_pos hb]; simp⟩
  rw [decodeRound]
  cases hr : runInPool (ord.map (decodeOne bad)) [] with
  | done r => exact absurd hr (this r)
  | ext m => exact ⟨m, rfl⟩
  | other m => exact ⟨m, rfl⟩

theorem decode_level (bad : Task → Bool) : ∀ (n : Nat) (P log : List Task), (∀ t ∈ P, t.kids.depth ≤ n) →
    DInevitably bad (fun s =>
      ((∀ t ∈ P, bad t = false ∧ ∀ c ∈ everything t.id t.kids, bad c = false) →
        ∃ l, s = .run [] (log ++ l) ∧ l.Perm (P ++ P.flatMap (fun t => everything t.id t.kids))) ∧
      ((∃ t ∈ P, bad t = true ∨ ∃ c ∈ everything t.id t.kids, bad c = true) → ∃ m, s = .failed m))
      (.run P log) := by
  intro n
  induction n with
  | zero =>
    intro P log hd
    have hk : ∀ t ∈ P, t.kids = .nil := by
      intro t ht
      have := hd t ht
      cases hk : t.kids with
      | nil => rfl
      | cons => rw [hk, Forest.depth] at this; omega
    by_cases hP : P = []
    · subst hP
      refine .here ⟨fun _ => ⟨[], by simp, by simp⟩, ?_⟩
      rintro ⟨t, ht, _⟩; cases ht
    · refine .step ⟨_, .mk hP (List.Perm.refl _)⟩ ?_
      intro s' hs
      cases hs with
      | @mk _ _ ord _ hp =>
        refine .here ⟨?_, ?_⟩
        · intro hg
          refine ⟨ord, ?_, ?_⟩
          · rw [decodeRound_good (fun t ht => (hg t (hp.subset ht)).1)]
            congr 1
            rw [List.flatMap_eq_nil_iff]
            intro t ht; rw [hk t (hp.subset ht)]; rfl
          · have : P.flatMap (fun t => everything t.id t.kids) = [] := by
              rw [List.flatMap_eq_nil_iff]; intro t ht; rw [hk t ht]; rfl
            rw [this, List.append_nil]; exact hp
        · rintro ⟨t, ht, hb⟩
          rcases hb with hb | ⟨c, hc, _⟩
          · exact decodeRound_bad ⟨t, hp.symm.subset ht, hb⟩
          · rw [hk t ht] at hc; cases hc
  | succ n ih =>
    intro P log hd
    by_cases hP : P = []
    · subst hP
      refine .here ⟨fun _ => ⟨[], by simp, by simp⟩, ?_⟩
      rintro ⟨t, ht, _⟩; cases ht
    · refine .step ⟨_, .mk hP (List.Perm.refl _)⟩ ?_
      intro s' hs
      cases hs with
      | @mk _ _ ord _ hp =>
        by_cases hbad : ∃ t ∈ ord, bad t = true
        · obtain ⟨m, hm⟩ := decodeRound_bad (log := log) hbad
          rw [hm]
          refine .here ⟨?_, fun _ => ⟨m, rfl⟩⟩
          intro hg
          obtain ⟨t, ht, hb⟩ := hbad
          rw [(hg t (hp.subset ht)).1] at hb; cases hb
        · have hgood : ∀ t ∈ ord, bad t = false := by
            intro t ht
            cases hb : bad t
            · rfl
            · exact absurd ⟨t, ht, hb⟩ hbad
          rw [decodeRound_good hgood]
          have hmem : ∀ c, c ∈ ord.flatMap (fun t => tasksOf t.id t.kids) ↔ ∃ t ∈ P, c ∈ tasksOf t.id t.kids := by
            intro c
            rw [List.mem_flatMap]
            constructor
            · rintro ⟨t, ht, hc⟩; exact ⟨t, hp.subset ht, hc⟩
            · rintro ⟨t, ht, hc⟩; exact ⟨t, hp.symm.subset ht, hc⟩
          have key : ∀ t : Task, ∀ c, c ∈ everything t.id t.kids ↔
              ∃ k ∈ tasksOf t.id t.kids, c = k ∨ c ∈ everything k.id k.kids := by
            intro t c
            rw [(everything_eq t.id t.kids).mem_iff, List.mem_append, List.mem_flatMap]
            constructor
            · rintro (h | ⟨k, hk, h⟩)
              · exact ⟨c, h, .inl rfl⟩
              · exact ⟨k, hk, .inr h⟩
            · rintro ⟨k, hk, rfl | h⟩
              · exact .inl hk
              · exact .inr ⟨k, hk, h⟩
          have hdep : ∀ t ∈ ord.flatMap (fun t => tasksOf t.id t.kids), t.kids.depth ≤ n := by
            intro c hc
            obtain ⟨t, ht, hc⟩ := (hmem c).mp hc
            have h1 := tasksOf_depth hc
            have h2 := hd t ht
            omega
          have hrec := ih (ord.flatMap (fun t => tasksOf t.id t.kids)) (log ++ ord) hdep
          have conv : ∀ {Q Q' : DState → Prop} {s}, (∀ s, Q s → Q' s) → DInevitably bad Q s → DInevitably bad Q' s := by
            intro Q Q' s hq h
            induction h with
            | here h => exact .here (hq _ h)
            | step he _ ih => exact .step he ih
          refine conv ?_ hrec
          rintro s ⟨h1, h2⟩
          refine ⟨?_, ?_⟩
          · intro hg
            obtain ⟨l, hl, hlp⟩ := h1 (by
              intro c hc
              obtain ⟨t, ht, hc⟩ := (hmem c).mp hc
              refine ⟨(hg t ht).2 c ((key t c).mpr ⟨c, hc, .inl rfl⟩), ?_⟩
              intro x hx
              exact (hg t ht).2 x ((key t x).mpr ⟨c, hc, .inr hx⟩))
            refine ⟨ord ++ l, by rw [hl, List.append_assoc], ?_⟩
            refine hp.append (hlp.trans ?_)
            refine List.Perm.trans ?_ (hp.flatMap_right _)
            rw [List.flatMap_assoc]
            refine (List.flatMap_append_perm ord _ _).trans ?_
            refine List.Perm.flatMap_left _ ?_
            intro t _
            exact (everything_eq t.id t.kids).symm
          · rintro ⟨t, ht, hb⟩
            rcases hb with hb | ⟨c, hc, hb⟩
            · rw [hgood t (hp.symm.subset ht)] at hb; cases hb
            · obtain ⟨k, hk, hck⟩ := (key t c).mp hc
              refine h2 ⟨k, (hmem k).mpr ⟨t, ht, hk⟩, ?_⟩
              rcases hck with rfl | hck
              · exact .inl hb
              · exact .inr ⟨c, hck, hb⟩

end V8.Encode
