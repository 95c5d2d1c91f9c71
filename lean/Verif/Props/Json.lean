import Verif.JsonLemmas
/-
C42: merging index files.
-/
namespace V8.Json

/-- a value without parts: text, number or null -/
def Leaf : J → Prop
  | .null => True
  | .str _ => True
  | .scalar _ => True
  | _ => False

theorem step_leaf (b : Option J) (v : J) (h : Leaf v) : step b v = some v := by
  cases v with
  | null => cases b with
    | none => rfl
    | some b => cases b <;> rfl
  | str s => cases b with
    | none => rfl
    | some b => cases b <;> rfl
  | scalar s => cases b with
    | none => rfl
    | some b => cases b <;> rfl
  | arr l => cases h
  | obj d => cases h

theorem step_obj (b : Option J) (nd : D) (y : J) (h : step b (.obj nd) = some y) :
    ((b = none ∨ b = some .null) ∧ y = .obj nd) ∨ ∃ bd z, b = some (.obj bd) ∧ merge bd nd = some z ∧ y = .obj z := by
  cases b with
  | none => injection h with h; exact .inl ⟨.inl rfl, h.symm⟩
  | some b =>
    cases b with
    | null => injection h with h; exact .inl ⟨.inr rfl, h.symm⟩
    | str s => cases h
    | scalar s => cases h
    | arr s => cases h
    | obj bd =>
      change (merge bd nd).map J.obj = some y at h
      cases hm : merge bd nd with
      | none => rw [hm] at h; cases h
      | some z => rw [hm] at h; injection h with h; exact .inr ⟨bd, z, rfl, hm, h.symm⟩

/-- **C42**: every text, number or null of the later (main) index is in the result: the main index wins -/
theorem C42_main_wins (p : List Text) : ∀ (base new m : D), new.WF → merge base new = some m → ∀ v, Leaf v →
    (J.obj new).at p = some v → (J.obj m).at p = some v := by
  induction p with
  | nil => intro base new m _ _ v hl h; rw [at_nil] at h; injection h with h; subst h; cases hl
  | cons k r ih =>
    intro base new m hw hm v hl h
    rw [at_obj] at h ⊢
    cases hk : new.get k with
    | none => rw [hk] at h; cases h
    | some w =>
      rw [hk] at h
      change w.at r = some v at h
      obtain ⟨y, hy, hmy⟩ := (merge_get new hw base m hm k).2 w hk
      rw [hmy]
      show y.at r = some v
      cases w with
      | obj nd =>
        rcases step_obj _ _ _ hy with ⟨_, rfl⟩ | ⟨bd, z, _, hz, rfl⟩
        · exact h
        · have hwn := D.get_wf new hw k _ hk
          rw [J.WF] at hwn
          exact ih bd nd z hwn hz v hl h
      | arr l =>
        cases r with
        | nil => rw [at_nil] at h; injection h with h; subst h; cases hl
        | cons a b => rw [at_leaf _ (fun d hd => by cases hd)] at h; cases h
      | null => rw [step_leaf _ .null trivial] at hy; injection hy with hy; rw [← hy]; exact h
      | str s => rw [step_leaf _ (.str s) trivial] at hy; injection hy with hy; rw [← hy]; exact h
      | scalar s => rw [step_leaf _ (.scalar s) trivial] at hy; injection hy with hy; rw [← hy]; exact h

/-- **C42**: an entry of the sub-index stays, unless the main index has a text, number or null at the same path or above it -/
theorem C42_sub_entries_kept (p : List Text) : ∀ (base new m : D), new.WF → merge base new = some m → ∀ v, Leaf v → v ≠ .null →
    (J.obj base).at p = some v →
    (J.obj m).at p = some v ∨ ∃ q w, q ≠ [] ∧ q <+: p ∧ Leaf w ∧ (J.obj new).at q = some w := by
  induction p with
  | nil => intro base new m _ _ v hl _ h; rw [at_nil] at h; injection h with h; subst h; cases hl
  | cons k r ih =>
    intro base new m hw hm v hl hnn h
    rw [at_obj] at h ⊢
    cases hb : base.get k with
    | none => rw [hb] at h; cases h
    | some b =>
      rw [hb] at h
      change b.at r = some v at h
      cases hk : new.get k with
      | none =>
        left
        rw [(merge_get new hw base m hm k).1 hk, hb]; exact h
      | some w =>
        obtain ⟨y, hy, hmy⟩ := (merge_get new hw base m hm k).2 w hk
        have hleaf : Leaf w → ∃ q w, q ≠ [] ∧ q <+: k :: r ∧ Leaf w ∧ (J.obj new).at q = some w := by
          intro hlw
          refine ⟨[k], w, by simp, ⟨r, rfl⟩, hlw, ?_⟩
          rw [at_obj, hk]; exact at_nil w
        cases w with
        | null => exact .inr (hleaf trivial)
        | str s => exact .inr (hleaf trivial)
        | scalar s => exact .inr (hleaf trivial)
        | arr l =>
          exfalso
          rw [hb] at hy
          cases b with
          | null => cases r with
            | nil => rw [at_nil] at h; injection h with h; exact hnn h.symm
            | cons a c => rw [at_leaf _ (fun d hd => by cases hd)] at h; cases h
          | arr l0 => cases r with
            | nil => rw [at_nil] at h; injection h with h; subst h; cases hl
            | cons a c => rw [at_leaf _ (fun d hd => by cases hd)] at h; cases h
          | str s => cases hy
          | scalar s => cases hy
          | obj d => cases hy
        | obj nd =>
          rw [hb] at hy
          rcases step_obj _ _ _ hy with ⟨h1 | h1, rfl⟩ | ⟨bd, z, h1, hz, rfl⟩
          · cases h1
          · injection h1 with h1; subst h1
            cases r with
            | nil => rw [at_nil] at h; injection h with h; exact absurd h.symm hnn
            | cons a c => rw [at_leaf _ (fun d hd => by cases hd)] at h; cases h
          · injection h1 with h1; subst h1
            have hwn := D.get_wf new hw k _ hk
            rw [J.WF] at hwn
            rcases ih bd nd z hwn hz v hl hnn h with h2 | ⟨q, w, hq, hpre, hlw, hat⟩
            · left; rw [hmy]; exact h2
            · right
              obtain ⟨t, rfl⟩ := hpre
              refine ⟨k :: q, w, by simp, ⟨t, rfl⟩, hlw, ?_⟩
              rw [at_obj, hk]; exact hat

/-- **C42**: nothing else gets in: an entry of the result is an entry of one of the two -/
theorem C42_nothing_invented (p : List Text) : ∀ (base new m : D), new.WF → merge base new = some m → ∀ v, Leaf v →
    (J.obj m).at p = some v → (J.obj new).at p = some v ∨ (J.obj base).at p = some v := by
  induction p with
  | nil => intro base new m _ _ v hl h; rw [at_nil] at h; injection h with h; subst h; cases hl
  | cons k r ih =>
    intro base new m hw hm v hl h
    rw [at_obj] at h ⊢
    rw [at_obj]
    cases hk : new.get k with
    | none => rw [(merge_get new hw base m hm k).1 hk] at h; exact .inr h
    | some w =>
      obtain ⟨y, hy, hmy⟩ := (merge_get new hw base m hm k).2 w hk
      rw [hmy] at h
      change y.at r = some v at h
      show w.at r = some v ∨ _
      cases w with
      | obj nd =>
        rcases step_obj _ _ _ hy with ⟨_, rfl⟩ | ⟨bd, z, hb, hz, rfl⟩
        · exact .inl h
        · have hwn := D.get_wf new hw k _ hk
          rw [J.WF] at hwn
          rw [hb]
          exact ih bd nd z hwn hz v hl h
      | arr l =>
        have hya : ∃ l', y = .arr l' := by
          cases hb : base.get k with
          | none => rw [hb] at hy; injection hy with hy; exact ⟨_, hy.symm⟩
          | some b => rw [hb] at hy; cases b <;> first | (injection hy with hy; exact ⟨_, hy.symm⟩) | cases hy
        obtain ⟨l', rfl⟩ := hya
        cases r with
        | nil => rw [at_nil] at h; injection h with h; subst h; cases hl
        | cons a c => rw [at_leaf _ (fun d hd => by cases hd)] at h; cases h
      | null => rw [step_leaf _ .null trivial] at hy; injection hy with hy; rw [← hy] at h; exact .inl h
      | str s => rw [step_leaf _ (.str s) trivial] at hy; injection hy with hy; rw [← hy] at h; exact .inl h
      | scalar s => rw [step_leaf _ (.scalar s) trivial] at hy; injection hy with hy; rw [← hy] at h; exact .inl h

/-- **C42**: merging the same index again changes nothing (index trees without lists) -/
theorem C42_idempotent (base new m : D) (hw : new.WF) (hn : new.NoList) (h : merge base new = some m) : merge m new = some m :=
  merge_idem new base m hw hn h

/-- a path where a dictionary of the main index meets something else in the sub-index, or a list something that is no list -/
def Clash (base new : D) : Prop :=
  ∃ p v b, p ≠ [] ∧ (J.obj new).at p = some v ∧ (J.obj base).at p = some b ∧ b ≠ .null ∧
    (((∃ nd, v = .obj nd) ∧ ¬∃ bd, b = .obj bd) ∨ ((∃ l, v = .arr l) ∧ ¬∃ l, b = .arr l))

theorem step_none (b : Option J) (v : J) : step b v = none ↔ ∃ x, b = some x ∧ x ≠ .null ∧
    (((∃ nd, v = .obj nd) ∧ ¬∃ bd, x = .obj bd) ∨ ((∃ l, v = .arr l) ∧ ¬∃ l, x = .arr l) ∨
      ∃ nd bd, v = .obj nd ∧ x = .obj bd ∧ merge bd nd = none) := by
  cases b with
  | none => cases v <;> simp [step]
  | some b =>
    cases b <;> cases v <;> simp [step]

/-- **C42**: the merge is refused exactly when the two clash -/
theorem C42_refused_iff_clash (new : D) (hw : new.WF) (base : D) : merge base new = none ↔ Clash base new := by
  rw [merge_none new hw]
  constructor
  · rintro ⟨x, v, hx, hs⟩
    obtain ⟨b, hb, hnn, h⟩ := (step_none _ _).mp hs
    have hat : ∀ r, (J.obj new).at (x :: r) = v.at r := by intro r; rw [at_obj, hx]; rfl
    have hatb : ∀ r, (J.obj base).at (x :: r) = b.at r := by intro r; rw [at_obj, hb]; rfl
    rcases h with h | h | ⟨nd, bd, rfl, rfl, hm⟩
    · exact ⟨[x], v, b, by simp, by rw [hat, at_nil], by rw [hatb, at_nil], hnn, .inl h⟩
    · exact ⟨[x], v, b, by simp, by rw [hat, at_nil], by rw [hatb, at_nil], hnn, .inr h⟩
    · have := step_nested new x nd hx
      have hwn := D.get_wf new hw x _ hx
      rw [J.WF] at hwn
      obtain ⟨p, v', b', hp, h1, h2, h3, h4⟩ := (C42_refused_iff_clash nd hwn bd).mp hm
      exact ⟨x :: p, v', b', by simp, by rw [hat, h1], by rw [hatb, h2], h3, h4⟩
  · rintro ⟨p, v, b, hp, h1, h2, h3, h4⟩
    cases p with
    | nil => exact absurd rfl hp
    | cons x r =>
      rw [at_obj] at h1 h2
      cases hx : new.get x with
      | none => rw [hx] at h1; cases h1
      | some w =>
        cases hb : base.get x with
        | none => rw [hb] at h2; cases h2
        | some bb =>
          rw [hx] at h1; rw [hb] at h2
          change w.at r = some v at h1
          change bb.at r = some b at h2
          refine ⟨x, w, hx, (step_none _ _).mpr ⟨bb, hb, ?_⟩⟩
          cases r with
          | nil =>
            rw [at_nil] at h1 h2
            injection h1 with h1; injection h2 with h2
            subst h1; subst h2
            refine ⟨h3, ?_⟩
            rcases h4 with h4 | h4
            · exact .inl h4
            · exact .inr (.inl h4)
          | cons a c =>
            cases w with
            | obj nd =>
              cases bb with
              | obj bd =>
                have := step_nested new x nd hx
                have hwn := D.get_wf new hw x _ hx
                rw [J.WF] at hwn
                exact ⟨by simp, .inr (.inr ⟨nd, bd, rfl, rfl, (C42_refused_iff_clash nd hwn bd).mpr ⟨a :: c, v, b, by simp, h1, h2, h3, h4⟩⟩)⟩
              | null => rw [at_leaf _ (fun d hd => by cases hd)] at h2; cases h2
              | str s => rw [at_leaf _ (fun d hd => by cases hd)] at h2; cases h2
              | scalar s => rw [at_leaf _ (fun d hd => by cases hd)] at h2; cases h2
              | arr s => rw [at_leaf _ (fun d hd => by cases hd)] at h2; cases h2
            | null => rw [at_leaf _ (fun d hd => by cases hd)] at h1; cases h1
            | str s => rw [at_leaf _ (fun d hd => by cases hd)] at h1; cases h1
            | scalar s => rw [at_leaf _ (fun d hd => by cases hd)] at h1; cases h1
            | arr s => rw [at_leaf _ (fun d hd => by cases hd)] at h1; cases h1
termination_by sizeOf new

theorem erase_get (d : D) (k x : Text) (hw : d.WF) : (d.erase k).get x = if k = x then none else d.get x := by
  match d with
  | .nil => rw [D.erase, D.get]; split <;> rfl
  | .cons k' v r =>
    rw [D.WF] at hw
    rw [D.erase]
    by_cases e : k' = k
    · rw [if_pos e]
      subst e
      by_cases e2 : k' = x
      · rw [if_pos e2, ← e2]; exact (D.get_none r k').mpr hw.1
      · rw [if_neg e2, D.get, if_neg e2]
    · rw [if_neg e, D.get, D.get, erase_get r k x hw.2.2]
      by_cases e2 : k' = x
      · rw [if_pos e2, if_pos e2, if_neg]; intro h; exact e (e2.trans h.symm)
      · rw [if_neg e2, if_neg e2]

theorem erase_keys (d : D) (k x : Text) (h : x ∈ (d.erase k).keys) : x ∈ d.keys := by
  match d with
  | .nil => exact h
  | .cons k' v r =>
    rw [D.erase] at h
    by_cases e : k' = k
    · rw [if_pos e] at h; rw [D.keys]; simp [h]
    · rw [if_neg e, D.keys] at h
      rw [D.keys]
      rcases List.mem_cons.mp h with h | h
      · simp [h]
      · simp [erase_keys r k x h]

theorem erase_wf (d : D) (k : Text) (h : d.WF) : (d.erase k).WF := by
  match d with
  | .nil => exact h
  | .cons k' v r =>
    rw [D.WF] at h
    rw [D.erase]
    by_cases e : k' = k
    · rw [if_pos e]; exact h.2.2
    · rw [if_neg e, D.WF]; exact ⟨fun hh => h.1 (erase_keys r k k' hh), h.2.1, erase_wf r k h.2.2⟩

/-- **C42**, whole loading: whatever sub-indexes are named, every text, number or null of the main index file (other than its
`index.json` entry) decides -/
theorem C42_check_index_main_wins (main : D) (subs : List D) (m : D) (hw : main.WF) (h : checkIndex main subs = some m)
    (p : List Text) (v : J) (hl : Leaf v) (hp : p.head? ≠ some "index.json".toList) (hat : (J.obj main).at p = some v) :
    (J.obj m).at p = some v := by
  have hat' : (J.obj (main.erase "index.json".toList)).at p = some v := by
    cases p with
    | nil => rw [at_nil] at hat; injection hat with hat; subst hat; cases hl
    | cons k r =>
      rw [at_obj] at hat ⊢
      rw [erase_get _ _ _ hw, if_neg]
      · exact hat
      · intro hk; exact hp (by rw [hk]; rfl)
  have hwe := erase_wf main "index.json".toList hw
  unfold checkIndex at h
  generalize main.erase "index.json".toList = me at *
  cases subs with
  | nil => exact C42_main_wins p .nil me m hwe h v hl hat'
  | cons a r =>
    have hfold : ∃ b, merge b me = some m := by
      have h' : (r ++ [me]).foldlM merge a = some m := by
        cases r with
        | nil => exact h
        | cons b t => exact h
      rw [List.foldlM_append] at h'
      cases hf : r.foldlM merge a with
      | none => rw [hf] at h'; cases h'
      | some b =>
        rw [hf] at h'
        refine ⟨b, ?_⟩
        change [me].foldlM merge b = some m at h'
        rw [List.foldlM_cons] at h'
        cases hmm : merge b me with
        | none => rw [hmm] at h'; cases h'
        | some x => rw [hmm] at h'; exact h'
    obtain ⟨b, hb⟩ := hfold
    exact C42_main_wins p b me m hwe hb v hl hat'

/-- **C42**: an index file and sub-indexes that are all empty give an empty index -/
theorem C42_empty : checkIndex .nil [] = some .nil := rfl

/-- sample: sub-index and main index with an overlap -/
def sampleSub : D := .cons "Form".toList (.obj (.cons "a.bsl".toList (.str "x/a.bsl".toList) (.cons "b.bsl".toList (.str "x/b.bsl".toList) .nil))) .nil
def sampleMain : D := .cons "index.json".toList (.arr ["sub".toList]) (.cons "Form".toList (.obj (.cons "a.bsl".toList (.str "y/a.bsl".toList) .nil)) .nil)

example : sampleMain.WF ∧ sampleSub.WF ∧ sampleSub.NoList := by
  simp [sampleMain, sampleSub, D.WF, J.WF, D.keys, D.NoList, J.NoList]

example : checkIndex sampleMain [sampleSub] =
    some (.cons "Form".toList (.obj (.cons "a.bsl".toList (.str "y/a.bsl".toList) (.cons "b.bsl".toList (.str "x/b.bsl".toList) .nil))) .nil) := by
  rfl

/-- a sub-index merged into a file where it names a folder: refused -/
example : Clash (.cons "F".toList (.str "x".toList) .nil) (.cons "F".toList (.obj .nil) .nil) :=
  ⟨["F".toList], .obj .nil, .str "x".toList, by simp, by rw [at_obj, D.get, if_pos rfl]; exact at_nil _, by rw [at_obj, D.get, if_pos rfl]; exact at_nil _, by simp,
    .inl ⟨⟨_, rfl⟩, by simp⟩⟩

/-- idempotence needs the absence of lists: they grow with each merge -/
theorem C42_lists_grow (k : Text) (l : List Text) (base m : D) (h : merge base (.cons k (.arr l) .nil) = some m) :
    ∃ l', m.get k = some (.arr l') ∧ (merge m (.cons k (.arr l) .nil)).bind (fun x => x.get k) = some (.arr (l' ++ l)) := by
  have hw : (D.cons k (.arr l) .nil).WF := by simp [D.WF, J.WF, D.keys]
  obtain ⟨y, hy, hm⟩ := (merge_get _ hw base m h k).2 (.arr l) (by rw [D.get, if_pos rfl])
  have : ∃ l', y = .arr l' := by
    cases hb : base.get k with
    | none => rw [hb] at hy; injection hy with hy; exact ⟨_, hy.symm⟩
    | some b => rw [hb] at hy; cases b <;> first | (injection hy with hy; exact ⟨_, hy.symm⟩) | cases hy
  obtain ⟨l', rfl⟩ := this
  refine ⟨l', hm, ?_⟩
  rw [merge_cons, hm]
  show ((merge (m.set k (.arr (l' ++ l))) .nil).bind _) = _
  rw [merge_nil]
  show (m.set k _).get k = _
  rw [D.get_set, if_pos rfl]

end V8.Json
