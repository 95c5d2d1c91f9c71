import Verif.Cli
import Verif.Props.Top
import Verif.Props.Misc
import Verif.PathLemmas
/-
C78: the command line.
-/
namespace V8.Cli
open V8.Str V8.Top

/-! ### specification -/

/-- the options as they were given -/
def given (f : Flags) : Opts := ⟨f.pre, f.auto, f.descent, f.version, none⟩

/-- no option is given empty, and not version 0 -/
def NotEmpty (f : Flags) : Prop := f.pre ≠ some [] ∧ f.version ≠ some [] ∧ f.descent ≠ some 0

/-- the steps of a batch: those of the products that are not disabled, in order -/
def steps (one : Text → V8.Misc.Params Opts → Option Step) (l : List (Text × V8.Misc.Params Opts)) : List (Option Step) :=
  (l.filter (fun x => !x.2.disable)).map (fun x => one x.1 x.2)

/-- steps one after the other as long as they succeed: the state after `k` of them, all of which succeeded -/
inductive Ran : List (Option Step) → Nat → Fs → Fs → Prop where
  | nil (l : List (Option Step)) (fs : Fs) : Ran l 0 fs fs
  | cons (s : Step) (r : List (Option Step)) (k : Nat) (fs gs : Fs) : (s fs).2 = true → Ran r k (s fs).1 gs → Ran (some s :: r) (k + 1) fs gs

/-! ### proofs -/

theorem options_given (f : Flags) (h : NotEmpty f) : options f = given f := by
  obtain ⟨h1, h2, h3⟩ := h
  have key : ∀ {α : Type} [DecidableEq α] (z : α) (v : Option α), v ≠ some z → kept (fun x => decide (x = z)) v = v := by
    intro α _ z v hv
    cases v with
    | none => rfl
    | some x => exact if_neg (by rw [decide_eq_true_eq]; exact fun e => hv (e ▸ rfl))
  unfold options given
  rw [key [] f.pre h1, key 0 f.descent h3, key [] f.version h2]

/-- **C78.**  `-E` and `-B` do what the functions `extract` and `build` do with the files, the index, the temporary folder and the options given, and the exit
code is 0 exactly if the function returned normally, 1 otherwise - provided no option is given empty and the version is not 0. -/
theorem C78_as_api (q : Parts) (cwd : Place) (f : Flags) (h : NotEmpty f) (a b : Text) (fs : Fs) :
    (main q cwd (.E a b) f fs).1 = (apiExtract q cwd (absolute cwd a) (absolute cwd b) f.index f.temp (given f) fs).1 ∧
    ((main q cwd (.E a b) f fs).2 = 0 ↔ (apiExtract q cwd (absolute cwd a) (absolute cwd b) f.index f.temp (given f) fs).2 = true) ∧
    (main q cwd (.B a b) f fs).1 = (apiBuild q cwd (absolute cwd a) (absolute cwd b) f.index f.temp (given f) fs).1 ∧
    ((main q cwd (.B a b) f fs).2 = 0 ↔ (apiBuild q cwd (absolute cwd a) (absolute cwd b) f.index f.temp (given f) fs).2 = true) := by
  have key : ∀ b : Bool, (if b = true then 0 else 1) = 0 ↔ b = true := by decide
  simp only [main, run, options_given f h, key, and_self]

/-- the names a path stands for: a relative path is looked up from the current folder, an absolute one is what it says -/
theorem absolute_eq (cwd : Place) (hc : ∀ c ∈ cwd, V8.Path.Plain c) (l : List Text) (hl : ∀ c ∈ l, V8.Path.Plain c) (hne : l ≠ []) :
    absolute cwd (join '/' l) = cwd ++ l ∧ absolute cwd (V8.Path.pathOf l) = l := by
  have hh : (join '/' l).head? ≠ some '/' := by
    cases l with
    | nil => exact absurd rfl hne
    | cons a r =>
      intro h0
      have ha := hl a List.mem_cons_self
      cases a with
      | nil => exact ha.2.1 rfl
      | cons c t =>
        have : c = '/' := by
          cases r with
          | nil => rw [join] at h0; exact Option.some.inj h0
          | cons b r => rw [join] at h0; exact Option.some.inj h0
        exact ha.1 (this ▸ List.mem_cons_self)
  constructor
  · unfold absolute
    rw [V8.Path.place_join, if_neg hh, V8.Path.place_pathOf cwd hc, split_join '/' _ hne (fun p hp => (hl p hp).1), V8.Path.foldl_plain cwd l hl]
  · unfold absolute
    have : (V8.Path.pathOf l).head? = some '/' := V8.Path.pathOf_head l hne
    rw [V8.Path.place_join, if_pos this, V8.Path.place_pathOf l hl]

/-- **C78, exit code.**  The exit code is 0 or 1, and 0 exactly if no exception was raised. -/
theorem C78_exit (q : Parts) (cwd : Place) (c : Cmd) (f : Flags) (fs : Fs) :
    ((main q cwd c f fs).2 = 0 ∨ (main q cwd c f fs).2 = 1) ∧ ((main q cwd c f fs).2 = 0 ↔ (run q cwd c f fs).2 = true) := by
  have key : ∀ b : Bool, ((if b = true then 0 else 1) = 0 ∨ (if b = true then 0 else 1) = 1) ∧ ((if b = true then 0 else 1) = 0 ↔ b = true) := by decide
  exact key _

theorem batch_steps (one : Text → V8.Misc.Params Opts → Option Step) : ∀ (l : List (Text × V8.Misc.Params Opts)) (fs : Fs),
    ∃ k gs, Ran (steps one l) k fs gs ∧
      (((batch one l fs).2 = true ∧ k = (steps one l).length ∧ (batch one l fs).1 = gs) ∨
       ((batch one l fs).2 = false ∧ ((steps one l)[k]? = some none ∧ (batch one l fs).1 = gs ∨
         ∃ s, (steps one l)[k]? = some (some s) ∧ (s gs).2 = false ∧ (batch one l fs).1 = (s gs).1)))
  | [], fs => ⟨0, fs, .nil _ _, .inl ⟨rfl, rfl, rfl⟩⟩
  | (name, p) :: r, fs => by
    by_cases hd : p.disable = true
    · obtain ⟨k, gs, h⟩ := batch_steps one r fs
      have e1 : steps one ((name, p) :: r) = steps one r := by
        unfold steps
        rw [List.filter_cons_of_neg (by simp [hd])]
      have e2 : batch one ((name, p) :: r) = batch one r := by rw [batch, if_pos hd]
      rw [e1, e2]
      exact ⟨k, gs, h⟩
    · have e1 : steps one ((name, p) :: r) = one name p :: steps one r := by
        unfold steps
        rw [List.filter_cons_of_pos (by simp [hd])]
        rfl
      rw [e1, batch, if_neg hd]
      cases ho : one name p with
      | none => exact ⟨0, fs, .nil _ _, .inr ⟨rfl, .inl ⟨rfl, rfl⟩⟩⟩
      | some s =>
        simp only
        rcases andThen_split s (batch one r) fs with ⟨h, h'⟩ | ⟨h', h⟩
        · rw [h]
          exact ⟨0, fs, .nil _ _, .inr ⟨h', .inr ⟨s, rfl, h', rfl⟩⟩⟩
        · rw [h]
          obtain ⟨k, gs, g1, g2⟩ := batch_steps one r (s fs).1
          refine ⟨k + 1, gs, .cons s _ k fs gs h' g1, ?_⟩
          rcases g2 with ⟨a, b, c⟩ | ⟨a, b⟩
          · exact .inl ⟨a, by rw [b]; rfl, c⟩
          · exact .inr ⟨a, b⟩

/-- **C78, batches.**  `-EA` and `-BA` process the products of the file that are not disabled, in order, each after the one before it succeeded - or, if `--index`
is given, the one product with that code, disabled or not; the exit code is 0 if all of them succeeded and 1 at the first that failed, after which nothing more
is changed. -/
theorem C78_batch (q : Parts) (cwd : Place) (file : Text) (f : Flags) (fs : Fs) (build : Bool) (l : List (Text × V8.Misc.Params Opts))
    (hl : (q.load file fs).bind (fun l => V8.Misc.selectProducts l f.index) = some l) :
    let c := if build then Cmd.BA file else .EA file
    let one := if build then buildOne q cwd else extractOne q cwd
    ∃ k gs, Ran (steps one l) k fs gs ∧
      (((main q cwd c f fs).2 = 0 ∧ k = (steps one l).length ∧ (main q cwd c f fs).1 = gs) ∨
       ((main q cwd c f fs).2 = 1 ∧ ((steps one l)[k]? = some none ∧ (main q cwd c f fs).1 = gs ∨
         ∃ s, (steps one l)[k]? = some (some s) ∧ (s gs).2 = false ∧ (main q cwd c f fs).1 = (s gs).1))) := by
  intro c one
  have hm : main q cwd c f fs = ((batch one l fs).1, if (batch one l fs).2 then 0 else 1) := by
    cases build <;> simp only [c, one, Bool.false_eq_true, if_false, if_true, main, run, batchAll, hl]
  obtain ⟨k, gs, h1, h2⟩ := batch_steps one l fs
  refine ⟨k, gs, h1, ?_⟩
  rw [hm]
  rcases h2 with ⟨a, b, d⟩ | ⟨a, b⟩
  · exact .inl ⟨by simp only [a, if_true], b, d⟩
  · exact .inr ⟨by simp only [a, Bool.false_eq_true, if_false], b⟩

/-- **C78, index.**  `-I` updates the index named by `--index` for the folder given, with the common folder of `--core`; without `--index` nothing is changed and the
exit code is 1. -/
theorem C78_update (q : Parts) (cwd : Place) (src : Text) (f : Flags) (fs : Fs) :
    (∀ i, f.index = some i → (main q cwd (.I src) f fs).1 = (q.update src i f.core fs).1 ∧
      ((main q cwd (.I src) f fs).2 = 0 ↔ (q.update src i f.core fs).2 = true)) ∧
    (f.index = none → main q cwd (.I src) f fs = (fs, 1)) := by
  have key : ∀ b : Bool, (if b = true then 0 else 1) = 0 ↔ b = true := by decide
  constructor
  · intro i hi
    simp only [main, run, apiUpdate, hi, key, and_self]
  · intro hi
    simp only [main, run, apiUpdate, hi, Bool.false_eq_true, if_false]

/-- what `-IA` does for one product: its index is updated for its sources; a product without sources or without an index ends the batch, and nothing is changed for it -/
def indexStep (q : Parts) (core : Option Text) (p : V8.Misc.Params Opts) : Option Step := match p.src, p.index with
  | some s, some i => some (q.update s i core)
  | some _, none => some (fun fs => (fs, false))
  | none, _ => none

/-- **C78, batch of indexes.**  `-IA` updates the indexes of the products of the file that are not disabled, in order, each after the one before it succeeded, all with
the common folder of `--core` - or, if `--index` is given, of the one product with that code (the `--index` of the command line is never taken for an index here);
the exit code is 0 if all of them succeeded and 1 at the first that failed, after which nothing more is changed. -/
theorem C78_update_batch (q : Parts) (cwd : Place) (file : Text) (f : Flags) (fs : Fs) (l : List (Text × V8.Misc.Params Opts))
    (hl : (q.load file fs).bind (fun l => V8.Misc.selectProducts l f.index) = some l) :
    let todo := (l.filter (fun x => !x.2.disable)).map (fun x => indexStep q f.core x.2)
    ∃ k gs, Ran todo k fs gs ∧
      (((main q cwd (.IA file) f fs).2 = 0 ∧ k = todo.length ∧ (main q cwd (.IA file) f fs).1 = gs) ∨
       ((main q cwd (.IA file) f fs).2 = 1 ∧ (todo[k]? = some none ∧ (main q cwd (.IA file) f fs).1 = gs ∨
         ∃ s, todo[k]? = some (some s) ∧ (s gs).2 = false ∧ (main q cwd (.IA file) f fs).1 = (s gs).1))) := by
  intro todo
  have ht : todo = steps (updateOne q f.core) l := by
    unfold steps
    refine List.map_congr_left (fun x _ => ?_)
    unfold updateOne indexStep apiUpdate
    cases x.2.src <;> cases x.2.index <;> rfl
  rw [ht]
  have hm : main q cwd (.IA file) f fs = ((batch (updateOne q f.core) l fs).1, if (batch (updateOne q f.core) l fs).2 then 0 else 1) := by
    simp only [main, run, batchAll, hl]
  obtain ⟨k, gs, h1, h2⟩ := batch_steps (updateOne q f.core) l fs
  refine ⟨k, gs, h1, ?_⟩
  rw [hm]
  rcases h2 with ⟨a, b, d⟩ | ⟨a, b⟩
  · exact .inl ⟨by simp only [a, if_true], b, d⟩
  · exact .inr ⟨by simp only [a, Bool.false_eq_true, if_false], b⟩

/-- **C78, products keep their options.**  In a batch every product is extracted or built with the options of the file of products, and with no others: the
version 0 reaches the function as 0. -/
theorem C78_batch_options (q : Parts) (cwd : Place) (name s b : Text) (p : V8.Misc.Params Opts) (o : Opts) (hs : p.src = some s) (hb : p.bin = some b)
    (ho : p.options = some o) :
    extractOne q cwd name p = some (apiExtract q cwd (absolute cwd b) (absolute cwd s) p.index p.temp o) ∧
    buildOne q cwd name p = some (apiBuild q cwd (absolute cwd s) (absolute cwd b) p.index p.temp { o with product := some name }) := by
  unfold extractOne buildOne
  rw [hs, hb, ho]
  exact ⟨rfl, rfl⟩

/-- a product that is missing: with a version the sources stay -/
theorem missing_kept (a : Args) (ci : CheckIndex) (st : ExtractStages) (R : Place → Prop) (h : st.Ok R) (fs : Fs) (d : Nat) (hd : a.descent = some d)
    (hm : fs a.product = none) (ht : ¬ Under a.tempDir a.product) (hi : ∃ o, ci fs = some o ∧ o ≠ some 0) :
    (extract a ci st fs).2 = false ∧ ∀ p, ¬ Under a.tempDir p → (extract a ci st fs).1 p = fs p := by
  unfold extract
  rw [withIndex_body hi]
  unfold extractBody
  have hw : when a.descent.isNone (clearDir a.src) = fun fs => (fs, true) := by
    unfold Top.when
    rw [hd]
    rfl
  simp only [hw]
  rcases andThen_split (fun fs => (fs, true)) (andThen (clearDir a.tempDir) <| andThen (st.container a.product (stage a.tempDir "decode_stage_0".toList)) <|
    andThen (st.decompress (stage a.tempDir "decode_stage_0".toList) (stage a.tempDir "decode_stage_1".toList)) <|
    andThen (st.decode (stage a.tempDir "decode_stage_1".toList) (stage a.tempDir "decode_stage_3".toList)) <|
    andThen (st.unpack (stage a.tempDir "decode_stage_3".toList) a.src) <| cleanUp a) fs with ⟨_, h1⟩ | ⟨_, h1⟩
  · cases h1
  rw [h1]
  rcases andThen_split (clearDir a.tempDir) (andThen (st.container a.product (stage a.tempDir "decode_stage_0".toList)) <|
    andThen (st.decompress (stage a.tempDir "decode_stage_0".toList) (stage a.tempDir "decode_stage_1".toList)) <|
    andThen (st.decode (stage a.tempDir "decode_stage_1".toList) (stage a.tempDir "decode_stage_3".toList)) <|
    andThen (st.unpack (stage a.tempDir "decode_stage_3".toList) a.src) <| cleanUp a) fs with ⟨h2, h2'⟩ | ⟨_, h2⟩
  · rw [h2]
    exact ⟨h2', fun p hp => writes_clear _ fs p hp⟩
  rw [h2]
  have hgone : (clearDir a.tempDir fs).1 a.product = none := by
    rw [writes_clear _ fs _ ht]
    exact hm
  have hf := h.missing a.product (stage a.tempDir "decode_stage_0".toList) _ hgone
  rcases andThen_split (st.container a.product (stage a.tempDir "decode_stage_0".toList)) (
    andThen (st.decompress (stage a.tempDir "decode_stage_0".toList) (stage a.tempDir "decode_stage_1".toList)) <|
    andThen (st.decode (stage a.tempDir "decode_stage_1".toList) (stage a.tempDir "decode_stage_3".toList)) <|
    andThen (st.unpack (stage a.tempDir "decode_stage_3".toList) a.src) <| cleanUp a) (clearDir a.tempDir fs).1 with ⟨h3, h3'⟩ | ⟨h3', _⟩
  · rw [h3]
    refine ⟨h3', fun p hp => ?_⟩
    rw [h.container _ _ _ p (fun hc => hp (under_stage hc)), writes_clear _ fs p hp]
  · rw [hf] at h3'
    cases h3'

/-- **C78 is false of the documented base version (history.md:354).**  `--descent 0` is dropped as if it had not been given.  With a file that is not there,
`-E file src --descent 0` ends with 1 and has deleted every file in `src`; the function `extract` with `descent` 0 - and so a product of a batch - keeps them
all. -/
theorem C78_descent_zero_neg (q : Parts) (cwd : Place) (f : Flags) (file src : Text) (fs : Fs) (R : Place → Prop)
    (hst : ∀ i o, (q.exStages i o).Ok R) (hi : ∃ o, q.check f.index fs = some o ∧ o ≠ some 0) (hd : f.descent = some 0) (ht : f.temp = none)
    (h1 : fs (absolute cwd file) = none) (h2 : absolute cwd file ≠ absolute cwd src) (h3 : ¬ Under q.fresh (absolute cwd file))
    (p : Place) (hp : Under (absolute cwd src) p) (hne : p ≠ absolute cwd src) (h4 : ¬ Under q.fresh p) :
    (main q cwd (.E file src) f fs).2 = 1 ∧ (main q cwd (.E file src) f fs).1 p = none ∧
    (apiExtract q cwd (absolute cwd file) (absolute cwd src) f.index f.temp (given f) fs).1 p = fs p := by
  have ho : (options f).descent = none := by
    unfold options kept
    rw [hd]
    rfl
  have htd : ∀ o : Opts, (⟨absolute cwd file, absolute cwd src, f.temp.map (absolute cwd), q.fresh, o.descent.map Int.toNat⟩ : Args).tempDir = q.fresh := by
    intro o
    unfold Args.tempDir
    rw [ht]
    rfl
  obtain ⟨a1, a2⟩ := C73_extract_destroys_neg ⟨absolute cwd file, absolute cwd src, f.temp.map (absolute cwd), q.fresh, (options f).descent.map Int.toNat⟩
    (q.check f.index) (q.exStages f.index (options f)) R (hst _ _) fs hi (by rw [ho]; rfl) ⟨h2, by rw [htd]; exact fun e => h3 (e ▸ List.prefix_refl _)⟩ (.inl h1)
  have b := (missing_kept ⟨absolute cwd file, absolute cwd src, f.temp.map (absolute cwd), q.fresh, (given f).descent.map Int.toNat⟩
    (q.check f.index) (q.exStages f.index (given f)) R (hst _ _) fs 0 (by unfold given; rw [hd]; rfl) h1 (by rw [htd]; exact h3) hi).2 p (by rw [htd]; exact h4)
  refine ⟨?_, ?_, b⟩
  · show (if (Top.extract _ _ _ fs).2 = true then 0 else 1) = 1
    rw [a1]
    rfl
  · exact a2 p hp hne (by rw [htd]; exact fun hc => h4 (under_stage hc))

/-- **C78, a version other than 0.**  With a file that is not there `-E file src --descent d` ends with 1 and nothing outside the temporary folder has changed. -/
theorem C78_version_kept (q : Parts) (cwd : Place) (f : Flags) (file src : Text) (fs : Fs) (R : Place → Prop)
    (hst : ∀ i o, (q.exStages i o).Ok R) (hi : ∃ o, q.check f.index fs = some o ∧ o ≠ some 0) (d : Int) (hd : f.descent = some d) (hd0 : d ≠ 0) (ht : f.temp = none)
    (h1 : fs (absolute cwd file) = none) (h3 : ¬ Under q.fresh (absolute cwd file)) (p : Place) (h4 : ¬ Under q.fresh p) :
    (main q cwd (.E file src) f fs).2 = 1 ∧ (main q cwd (.E file src) f fs).1 p = fs p := by
  have ho : (options f).descent = some d := by
    unfold options kept
    rw [hd]
    exact if_neg (by simpa using hd0)
  have htd : (⟨absolute cwd file, absolute cwd src, f.temp.map (absolute cwd), q.fresh, (options f).descent.map Int.toNat⟩ : Args).tempDir = q.fresh := by
    unfold Args.tempDir
    rw [ht]
    rfl
  obtain ⟨a1, a2⟩ := missing_kept ⟨absolute cwd file, absolute cwd src, f.temp.map (absolute cwd), q.fresh, (options f).descent.map Int.toNat⟩
    (q.check f.index) (q.exStages f.index (options f)) R (hst _ _) fs d.toNat (by rw [ho]; rfl) h1 (by rw [htd]; exact h3) hi
  refine ⟨?_, a2 p (by rw [htd]; exact h4)⟩
  show (if (Top.extract _ _ _ fs).2 = true then 0 else 1) = 1
  rw [a1]
  rfl

/-- **C78 is false of the other options in a batch.**  `-EA` and `-BA` accept every option and use none of them but `--index`, which is the code of a product
there and not the path of an index; `--processes` is not used by any command. -/
theorem C78_ignored_neg (q : Parts) (cwd : Place) (file : Text) (f g : Flags) (h : f.index = g.index) :
    main q cwd (.EA file) f = main q cwd (.EA file) g ∧ main q cwd (.BA file) f = main q cwd (.BA file) g ∧
    ∀ c n, main q cwd c { f with processes := n } = main q cwd c f := by
  refine ⟨by unfold main run; rw [h], by unfold main run; rw [h], fun c n => ?_⟩
  cases c <;> rfl

/-- **C78 is false of an index without entries.**  `-E` and `-B` have done nothing and end with 0. -/
theorem C78_empty_index_neg (q : Parts) (cwd : Place) (f : Flags) (a b : Text) (fs : Fs) (h : q.check f.index fs = some (some 0)) :
    main q cwd (.E a b) f fs = (fs, 0) ∧ main q cwd (.B a b) f fs = (fs, 0) := by
  constructor
  · show ((Top.extract _ _ _ fs).1, if (Top.extract _ _ _ fs).2 = true then 0 else 1) = _
    rw [(C73_empty_index_neg ⟨absolute cwd a, absolute cwd b, f.temp.map (absolute cwd), q.fresh, (options f).descent.map Int.toNat⟩ (q.check f.index)
      (q.exStages f.index (options f)) (q.buStages f.index (options f)) fs h).1]
    rfl
  · show ((Top.build _ _ _ fs).1, if (Top.build _ _ _ fs).2 = true then 0 else 1) = _
    rw [(C73_empty_index_neg ⟨absolute cwd b, absolute cwd a, f.temp.map (absolute cwd), q.fresh, (options f).descent.map Int.toNat⟩ (q.check f.index)
      (q.exStages f.index (options f)) (q.buStages f.index (options f)) fs h).2]
    rfl

end V8.Cli
