import Verif.IndexLemmas
import Verif.Pack
import Verif.DescentLemmas
/-
C22, C23, C24: index files.
-/
namespace V8.Index
open V8.Str V8.Json V8.Descent

/-! ### C22 -/

/-- **C22**: updating an index changes and removes nothing: every text, number, list or null stays at its place -/
theorem C22_nothing_changed (dst path : Text) (tree : Entries) (idx m : D) (h : updateIndex dst idx path tree = some m)
    (p : List Text) (v : J) (hv : ∀ d, v ≠ .obj d) (hp : (J.obj idx).at p = some v) : (J.obj m).at p = some v := by
  obtain ⟨v', h1, h2⟩ := (update_spec dst tree idx m path h).1 p v hp
  rcases h2 with rfl | ⟨a, _, rfl, _⟩
  · exact h1
  · exact absurd rfl (hv a)

/-- **C22**: dictionaries stay dictionaries -/
theorem C22_folders_kept (dst path : Text) (tree : Entries) (idx m : D) (h : updateIndex dst idx path tree = some m)
    (p : List Text) (a : D) (hp : (J.obj idx).at p = some (.obj a)) : ∃ b, (J.obj m).at p = some (.obj b) := by
  obtain ⟨v', h1, h2⟩ := (update_spec dst tree idx m path h).1 p _ hp
  rcases h2 with rfl | ⟨_, b, _, rfl⟩
  · exact ⟨_, h1⟩
  · exact ⟨_, h1⟩

/-- **C22**: afterwards every file of the source tree has an entry, under its logical name -/
theorem C22_every_file_listed (dst path : Text) (tree : Entries) (idx m : D) (h : updateIndex dst idx path tree = some m)
    (ds : List Text) (n : Text) (hf : HasFile tree ds n) : ∃ e v, removeDescent n = some e ∧ (J.obj m).at (ds ++ [e]) = some v :=
  covers_file tree m ds n (update_spec dst tree idx m path h).2 hf

/-- **C22**: what is added are files of the tree, pointing below the given folder (or nowhere, without a folder) -/
theorem C22_only_files_added (dst : Text) (tree : Entries) (idx m : D) (h : updateIndex dst idx [] tree = some m)
    (p : List Text) (v : J) (hv : ∀ d, v ≠ .obj d) (hp : (J.obj m).at p = some v) : (J.obj idx).at p = some v ∨
      ∃ ds n e, HasFile tree ds n ∧ removeDescent n = some e ∧ p = ds ++ [e] ∧
        v = .str (if dst = [] then [] else pjoin (pjoin dst (under [] ds)) e) :=
  update_adds dst tree idx m [] h p v hv hp

/-- **C22**: a second update changes nothing -/
theorem C22_idempotent (dst path : Text) (tree : Entries) (idx m : D) (h : updateIndex dst idx path tree = some m) :
    updateIndex dst m path tree = some m :=
  update_covered dst tree m path (update_spec dst tree idx m path h).2

/-- sample tree: one folder with two versions of a file, and a plain file -/
def sampleTree : Entries := .cons "Form".toList (.dir (.cons "a.bsl".toList .file (.cons "a.12.bsl".toList .file .nil))) (.cons "c.json".toList .file .nil)

set_option maxRecDepth 8000 in
example : updateIndex "core".toList (.cons "Form".toList (.obj (.cons "z".toList .null .nil)) .nil) [] sampleTree =
    some (.cons "Form".toList (.obj (.cons "z".toList .null (.cons "a.bsl".toList (.str "core/Form/a.bsl".toList) .nil)))
      (.cons "c.json".toList (.str "core/c.json".toList) .nil)) := by
  have h1 : removeDescent "Form".toList = some "Form".toList := by decide +kernel
  have h2 : removeDescent "a.bsl".toList = some "a.bsl".toList := by decide +kernel
  have h3 : removeDescent "a.12.bsl".toList = some "a.bsl".toList := by decide +kernel
  have h4 : removeDescent "c.json".toList = some "c.json".toList := by decide +kernel
  have h5 : pjoin (pjoin "core".toList (pjoin [] "Form".toList)) "a.bsl".toList = "core/Form/a.bsl".toList := by decide +kernel
  have h6 : pjoin (pjoin "core".toList []) "c.json".toList = "core/c.json".toList := by decide +kernel
  have e1 : ("Form".toList : Text) ≠ "c.json".toList := by decide +kernel
  have e2 : ("z".toList : Text) ≠ "a.bsl".toList := by decide +kernel
  have e3 : ¬ ("core".toList : Text) = [] := by decide +kernel
  rw [sampleTree]
  simp only [updateIndex, h1, h2, h3, h4, h5, h6, D.get, D.set, if_true, if_neg e1, if_neg e2, if_neg e3, Option.bind_some]

/-! ### C23 -/

/-- the folders of a path -/
def folders (path : Text) : List Text := if path = [] then [] else split '/' path

theorem walk_at (p : List Text) : ∀ j v, walk j p = .value v ↔ j.at p = some v := by
  induction p with
  | nil => intro j v; rw [walk, at_nil]; simp
  | cons k r ih =>
    intro j v
    cases j with
    | obj d =>
      rw [walk, at_obj]
      cases d.get k with
      | none => simp
      | some w => exact ih w v
    | null => rw [at_leaf _ (by simp), walk]; all_goals simp
    | str s => rw [at_leaf _ (by simp), walk]; all_goals simp
    | scalar s => rw [at_leaf _ (by simp), walk]; all_goals simp
    | arr s => rw [at_leaf _ (by simp), walk]; all_goals simp

theorem at_append (p : List Text) : ∀ (j : J) (q : List Text), j.at (p ++ q) = (j.at p).bind (fun v => v.at q) := by
  induction p with
  | nil => intro j q; rw [at_nil]; rfl
  | cons k r ih =>
    intro j q
    cases j with
    | obj d =>
      rw [List.cons_append, at_obj, at_obj]
      cases d.get k with
      | none => rfl
      | some w => exact ih w q
    | null => rw [List.cons_append, at_leaf _ (by simp), at_leaf _ (by simp)]; rfl
    | str s => rw [List.cons_append, at_leaf _ (by simp), at_leaf _ (by simp)]; rfl
    | scalar s => rw [List.cons_append, at_leaf _ (by simp), at_leaf _ (by simp)]; rfl
    | arr s => rw [List.cons_append, at_leaf _ (by simp), at_leaf _ (by simp)]; rfl

theorem at_last (j : J) (p : List Text) (k : Text) (v : J) : j.at (p ++ [k]) = some v ↔ ∃ d, j.at p = some (.obj d) ∧ d.get k = some v := by
  rw [at_append]
  cases h : j.at p with
  | none => simp
  | some w =>
    show w.at [k] = some v ↔ _
    cases w with
    | obj d =>
      rw [at_obj]
      constructor
      · intro h2
        refine ⟨d, rfl, ?_⟩
        cases hg : d.get k with
        | none => rw [hg] at h2; cases h2
        | some x => rw [hg] at h2; change x.at [] = _ at h2; rw [at_nil] at h2; exact h2
      · rintro ⟨d', hd, hg⟩
        injection hd with hd; injection hd with hd; subst hd
        rw [hg]; exact at_nil v
    | null => rw [at_leaf _ (by simp)]; simp
    | str s => rw [at_leaf _ (by simp)]; simp
    | scalar s => rw [at_leaf _ (by simp)]; simp
    | arr s => rw [at_leaf _ (by simp)]; simp

theorem index_ne_nil {idx : D} {p : List Text} {k : Text} {v : J} (h : (J.obj idx).at (p ++ [k]) = some v) : idx ≠ .nil := by
  rintro rfl
  cases p with
  | nil => rw [List.nil_append, at_obj] at h; cases h
  | cons a b => rw [List.cons_append, at_obj] at h; cases h

/-- **C23**: a file with an entry of its own goes where the entry says -/
theorem C23_exact_entry (idx : D) (path file s : Text) (descent : Bool) (hs : s ≠ [])
    (h : (J.obj idx).at (folders path ++ [file]) = some (.str s)) :
    getDestPath (some idx) path file descent = some (upFrom descent (dirname s), basename s) := by
  obtain ⟨d, h1, h2⟩ := (at_last _ _ _ _).mp h
  have hw := (walk_at (folders path) (.obj idx) (.obj d)).mpr h1
  have hg : getFromIndex idx path file = .value (.str s) := by
    unfold getFromIndex
    unfold folders at hw
    rw [hw]
    simp only [h2]
  unfold getDestPath
  have := index_ne_nil h
  cases idx with
  | nil => exact absurd rfl this
  | cons k v r => simp only [hg, if_neg hs]

/-- **C23**: a file without entry goes where the `*` entry of its own folder says -/
theorem C23_wildcard (idx : D) (path file s : Text) (descent : Bool) (hf : file ≠ [])
    (hno : (J.obj idx).at (folders path ++ [file]) = none) (h : (J.obj idx).at (folders path ++ [['*']]) = some (.str s)) :
    getDestPath (some idx) path file descent = some (upFrom descent (dirname (pjoin s file)), basename (pjoin s file)) := by
  obtain ⟨d, h1, h2⟩ := (at_last _ _ _ _).mp h
  have h3 : d.get file = none := by
    cases hg : d.get file with
    | none => rfl
    | some v => rw [(at_last _ _ _ _).mpr ⟨d, h1, hg⟩] at hno; cases hno
  have hw := (walk_at (folders path) (.obj idx) (.obj d)).mpr h1
  have hg : getFromIndex idx path file = .value (.str (pjoin s file)) := by
    unfold getFromIndex
    unfold folders at hw
    rw [hw]
    simp only [h2, h3]
  have hne : pjoin s file ≠ [] := by
    unfold pjoin
    split
    · exact hf
    · split <;> simp [hf]
  unfold getDestPath
  have := index_ne_nil h
  cases idx with
  | nil => exact absurd rfl this
  | cons k v r => simp only [hg, if_neg hne]

/-- **C23**: a file without entry, in a folder without `*` entry, stays where it is (also when the index does not know the
folder at all); nothing but dictionaries may lie on the way -/
theorem C23_unindexed_stays (idx : D) (path file : Text) (descent : Bool)
    (hno : (J.obj idx).at (folders path ++ [file]) = none) (hwild : (J.obj idx).at (folders path ++ [['*']]) = none)
    (hway : ∀ q, q <+: folders path → (J.obj idx).at q = none ∨ ∃ d, (J.obj idx).at q = some (.obj d)) :
    getDestPath (some idx) path file descent = some (path, file) := by
  have hwalk : ∀ (p : List Text) (j : J), (∀ q, q <+: p → j.at q = none ∨ ∃ d, j.at q = some (.obj d)) → walk j p = .keyError ∨ ∃ d, walk j p = .value (.obj d) := by
    intro p
    induction p with
    | nil =>
      intro j h
      rcases h [] (List.nil_prefix) with h | ⟨d, h⟩
      · rw [at_nil] at h; cases h
      · rw [at_nil] at h; injection h with h; subst h; right; exact ⟨d, by rw [walk]⟩
    | cons k r ih =>
      intro j h
      rcases h [] (List.nil_prefix) with h0 | ⟨d, h0⟩
      · rw [at_nil] at h0; cases h0
      · rw [at_nil] at h0; injection h0 with h0; subst h0
        rw [walk]
        cases hk : d.get k with
        | none => exact .inl rfl
        | some w =>
          refine ih w ?_
          intro q hq
          obtain ⟨t, rfl⟩ := hq
          have := h (k :: q) ⟨t, rfl⟩
          rw [at_obj, hk] at this
          exact this
  unfold getDestPath
  cases idx with
  | nil => rfl
  | cons k v r =>
    simp only
    have hg : getFromIndex (.cons k v r) path file = .keyError := by
      unfold getFromIndex
      rcases hwalk (folders path) _ hway with h | ⟨d, h⟩
      · unfold folders at h; rw [h]
      · have hat := (walk_at _ _ _).mp h
        unfold folders at h; rw [h]
        simp only
        cases h1 : d.get file with
        | some w => rw [(at_last _ _ _ _).mpr ⟨d, hat, h1⟩] at hno; cases hno
        | none =>
          cases h2 : d.get ['*'] with
          | some w => rw [(at_last _ _ _ _).mpr ⟨d, hat, h2⟩] at hwild; cases hwild
          | none => rfl
    rw [hg]

/-- **C23**: without an index every file stays where it is -/
theorem C23_no_index (path file : Text) (descent : Bool) : getDestPath none path file descent = some (path, file) := rfl

/-- the path of an index entry: folder names and a file name, none of them empty or with a slash -/
def CleanPath (s : Text) (ds : List Text) (n : Text) : Prop :=
  s = join '/' (ds ++ [n]) ∧ (∀ d ∈ ds ++ [n], d ≠ [] ∧ '/' ∉ d)

theorem split_clean_path (s : Text) (ds : List Text) (n : Text) (h : CleanPath s ds n) : split '/' s = ds ++ [n] := by
  rw [h.1]
  exact split_join '/' _ (by simp) (fun p hp => (h.2 p hp).2)

theorem basename_clean (s : Text) (ds : List Text) (n : Text) (h : CleanPath s ds n) : basename s = n := by
  rw [basename, split_clean_path s ds n h, List.getLast?_concat]; rfl

theorem join_last_slash (l : List Text) (hne : l ≠ []) (h : ∀ d ∈ l, d ≠ [] ∧ '/' ∉ d) : ∃ t c, join '/' l = t ++ [c] ∧ c ≠ '/' := by
  induction l with
  | nil => exact absurd rfl hne
  | cons a r ih =>
    cases r with
    | nil =>
      have ha := h a (by simp)
      obtain ⟨t, c, htc⟩ : ∃ t c, a = t ++ [c] := ⟨_, _, (List.dropLast_concat_getLast ha.1).symm⟩
      refine ⟨t, c, htc, ?_⟩
      rintro rfl
      exact ha.2 (by rw [htc]; simp)
    | cons b r =>
      obtain ⟨t, c, h1, h2⟩ := ih (by simp) (fun d hd => h d (by simp only [List.mem_cons] at hd ⊢; exact .inr hd))
      exact ⟨a ++ '/' :: t, c, by rw [join, h1]; simp, h2⟩

theorem dirname_clean (s : Text) (ds : List Text) (n : Text) (h : CleanPath s ds n) : dirname s = join '/' ds := by
  have hds : ∀ d ∈ ds, d ≠ [] ∧ '/' ∉ d := fun d hd => h.2 d (by simp [hd])
  rw [dirname, split_clean_path s ds n h]
  simp only [List.dropLast_concat]
  cases ds with
  | nil => rfl
  | cons a r =>
    rw [if_neg]
    · obtain ⟨t, c, h1, h2⟩ := join_last_slash (a :: r) (by simp) hds
      rw [h1, List.reverse_append]
      simp [h2]
    · intro hall
      have := List.all_eq_true.mp hall a (by simp)
      exact (hds a (by simp)).1 (of_decide_eq_true this)

theorem pjoin_assoc_clean (u : Text) (ds : List Text) (n : Text) (s : Text) (h : CleanPath s ds n) (hne : ds ≠ []) :
    pjoin (pjoin u (join '/' ds)) n = pjoin u s := by
  have hn := h.2 n (by simp)
  have hds : ∀ d ∈ ds, d ≠ [] ∧ '/' ∉ d := fun d hd => h.2 d (by simp [hd])
  have hstart : ∀ (l : List Text), l ≠ [] → (∀ d ∈ l, d ≠ [] ∧ '/' ∉ d) → starts ['/'] (join '/' l) = false := by
    intro l hl h
    cases l with
    | nil => exact absurd rfl hl
    | cons a r =>
      have ha := h a (by simp)
      cases a with
      | nil => exact absurd rfl ha.1
      | cons c t =>
        have hc : c ≠ '/' := by rintro rfl; exact ha.2 (by simp)
        cases r with
        | nil => simp [join, starts, List.isPrefixOf, Ne.symm hc]
        | cons b r => simp [join, starts, List.isPrefixOf, Ne.symm hc]
  have hs1 := hstart ds hne hds
  have hs2 : starts ['/'] s = false := by rw [h.1]; exact hstart _ (by simp) h.2
  have hs3 : starts ['/'] n = false := hstart [n] (by simp) (by simpa using hn)
  have hsplit : s = join '/' ds ++ '/' :: n := by
    rw [h.1]
    exact join_append '/' ds [n] hne (by simp)
  have hend : ∀ (x : Text), ends ['/'] (x ++ join '/' ds) = false := by
    intro x
    obtain ⟨t, c, h1, h2⟩ := join_last_slash ds hne hds
    cases hb : ends ['/'] (x ++ join '/' ds) with
    | false => rfl
    | true =>
      rw [ends_iff, h1] at hb
      obtain ⟨z, hz⟩ := hb
      have := congrArg List.getLast? hz
      rw [← List.append_assoc, List.getLast?_concat, List.getLast?_concat] at this
      injection this with this
      exact absurd this.symm h2
  have hnonempty : join '/' ds ≠ [] := by
    obtain ⟨t, c, h1, _⟩ := join_last_slash ds hne hds
    rw [h1]; simp
  have step : ∀ x : Text, (∃ y, x = y ++ join '/' ds) → pjoin x n = x ++ '/' :: n := by
    rintro x ⟨y, rfl⟩
    unfold pjoin
    rw [if_neg (by rw [hs3]; simp), if_neg]
    intro hh
    rcases hh with hh | hh
    · exact hnonempty (List.append_eq_nil_iff.mp hh).2
    · rw [hend] at hh; cases hh
  have hu1 : pjoin u (join '/' ds) = if u = [] ∨ ends ['/'] u then u ++ join '/' ds else u ++ '/' :: join '/' ds := by
    unfold pjoin; rw [if_neg (by rw [hs1]; simp)]
  have hu2 : pjoin u s = if u = [] ∨ ends ['/'] u then u ++ s else u ++ '/' :: s := by
    unfold pjoin; rw [if_neg (by rw [hs2]; simp)]
  rw [step, hu1, hu2, hsplit]
  · by_cases hu : u = [] ∨ ends ['/'] u = true
    · rw [if_pos hu, if_pos hu]; simp
    · rw [if_neg hu, if_neg hu]; simp
  · rw [hu1]
    by_cases hu : u = [] ∨ ends ['/'] u = true
    · rw [if_pos hu]; exact ⟨u, rfl⟩
    · rw [if_neg hu]; exact ⟨u ++ ['/'], by simp⟩

/-- **C23/C24**: extraction writes an indexed file exactly where building reads it: the folder and name chosen on extraction
are those of the index entry below the root of indexed files -/
theorem C23_written_where_read (idx : D) (path file s : Text) (descent : Bool) (ds : List Text) (n : Text) (hc : CleanPath s ds n)
    (h : (J.obj idx).at (folders path ++ [file]) = some (.str s)) :
    ∃ p f, getDestPath (some idx) path file descent = some (p, f) ∧ pjoin p f = upFrom descent s := by
  have hs : s ≠ [] := by
    obtain ⟨t, c, h1, _⟩ := join_last_slash _ (by simp) hc.2
    rw [hc.1, h1]; simp
  refine ⟨_, _, C23_exact_entry idx path file s descent hs h, ?_⟩
  rw [basename_clean s ds n hc, dirname_clean s ds n hc]
  unfold upFrom
  cases ds with
  | nil =>
    have hsn : s = n := by rw [hc.1]; rfl
    subst hsn
    have hn := hc.2 s (by simp)
    have h0 : starts ['/'] s = false := by
      cases s with
      | nil => exact absurd rfl hn.1
      | cons c t =>
        have : c ≠ '/' := by rintro rfl; exact hn.2 (by simp)
        simp [starts, List.isPrefixOf, Ne.symm this]
    cases descent with
    | true =>
      show pjoin ['.', '.', '/', '.', '.', '/'] s = pjoin ['.', '.', '/', '.', '.'] s
      have h1 : ∀ u : Text, pjoin u s = if u = [] ∨ ends ['/'] u then u ++ s else u ++ '/' :: s := by
        intro u; unfold pjoin; rw [if_neg (by rw [h0]; simp)]
      rw [h1, h1, if_pos (Or.inr (by decide)), if_neg (by decide)]
      simp
    | false =>
      show pjoin ['.', '.', '/'] s = pjoin ['.', '.', '/'] s
      rfl
  | cons a r => exact pjoin_assoc_clean _ (a :: r) n s hc (by simp)

/-- **C23, what the code does not do**: with an empty `*` entry a file is not left alone (as an empty entry of its own would
leave it) but moved out of the source folder -/
theorem C23_empty_wildcard_moves (idx : D) (path file : Text) (hf : file ≠ []) (hsl : '/' ∉ file)
    (hno : (J.obj idx).at (folders path ++ [file]) = none) (h : (J.obj idx).at (folders path ++ [['*']]) = some (.str [])) :
    getDestPath (some idx) path file false = some (['.', '.', '/'], file) := by
  rw [C23_wildcard idx path file [] false hf hno h]
  have hp : pjoin [] file = file := by
    unfold pjoin
    split
    · rfl
    · rw [if_pos (Or.inl rfl)]; rfl
  have hc : CleanPath file [] file := ⟨rfl, by simp [hf, hsl]⟩
  rw [hp, dirname_clean _ _ _ hc, basename_clean _ _ _ hc]
  rfl

/-- sample index -/
def sampleIndex : D := .cons "Form".toList (.obj (.cons "a.bsl".toList (.str "core/a.bsl".toList) (.cons ['*'] (.str "rest".toList) .nil))) .nil

example : (J.obj sampleIndex).at (folders "Form".toList ++ ["a.bsl".toList]) = some (.str "core/a.bsl".toList) ∧
    CleanPath "core/a.bsl".toList ["core".toList] "a.bsl".toList := by
  constructor
  · have : folders "Form".toList = ["Form".toList] := by decide +kernel
    rw [this, List.singleton_append, at_obj, sampleIndex, D.get, if_pos rfl]
    show (J.obj _).at [_] = _
    rw [at_obj, D.get, if_pos rfl]
    exact at_nil _
  · refine ⟨by decide +kernel, ?_⟩
    intro d hd
    rcases List.mem_append.mp hd with hd | hd <;> rw [List.mem_singleton] at hd <;> subst hd <;> constructor <;> decide +kernel

example : (J.obj sampleIndex).at (folders "Form".toList ++ ["b.bsl".toList]) = none ∧
    (J.obj sampleIndex).at (folders "Form".toList ++ [['*']]) = some (.str "rest".toList) := by
  have : folders "Form".toList = ["Form".toList] := by decide +kernel
  rw [this, List.singleton_append, List.singleton_append, at_obj, at_obj, sampleIndex, D.get, if_pos rfl]
  have h1 : ("a.bsl".toList : Text) ≠ "b.bsl".toList := by decide +kernel
  have h2 : (['*'] : Text) ≠ "b.bsl".toList := by decide +kernel
  have h3 : ("a.bsl".toList : Text) ≠ ['*'] := by decide +kernel
  constructor
  · show (J.obj _).at [_] = _
    rw [at_obj, D.get, if_neg h1, D.get, if_neg h2]; rfl
  · show (J.obj _).at [_] = _
    rw [at_obj, D.get, if_neg h3, D.get, if_pos rfl]
    exact at_nil _

/-! ### C24 -/

/-- keys a file of the index lies under: ordinary ones -/
def Ordinary (k : Text) : Prop := k ≠ areasKey ∧ starts ['*'] k = false

/-- one step of _pack_index -/
theorem packIndex_step (env : Env) (path : List Text) (k : Text) (v : J) (r : D) (done : List Text) :
    packIndex env path (.cons k v r) done =
    (if k = areasKey || !truthy v then packIndex env path r done
    else if starts ['*'] k then
      match v with
      | .str p => match env.cwd p with
        | none => packIndex env path r done
        | some names =>
          ((wildNames k done names).mapM (fun n => packElem env path n (pjoin p n))).bind (fun ops =>
            (packIndex env path r done).map (ops ++ ·))
      | _ => none
    else match v with
      | .obj d => (packIndex env (path ++ [k]) d []).bind (fun ops => (packIndex env path r done).map (ops ++ ·))
      | .str p => (packElem env path k p).bind (fun op => (packIndex env path r (done ++ [k])).map (op :: ·))
      | _ => none) := by
  rw [packIndex.eq_def]
  cases v <;> rfl

/-- the copies of one index entry -/
def headOps (env : Env) (path : List Text) (k : Text) (v : J) (done : List Text) : Option (List Op) :=
  if k = areasKey || !truthy v then some []
  else if starts ['*'] k then
    match v with
    | .str p => match env.cwd p with
      | none => some []
      | some names => (wildNames k done names).mapM (fun n => packElem env path n (pjoin p n))
    | _ => none
  else match v with
    | .obj d => packIndex env (path ++ [k]) d []
    | .str p => (packElem env path k p).map (fun op => [op])
    | _ => none

theorem packIndex_cons (env : Env) (path : List Text) (k : Text) (v : J) (r : D) (done : List Text) (ops : List Op)
    (h : packIndex env path (.cons k v r) done = some ops) :
    ∃ a rest done', headOps env path k v done = some a ∧ packIndex env path r done' = some rest ∧ ops = a ++ rest ∧
      (done' = done ∨ done' = done ++ [k]) := by
  rw [packIndex_step] at h
  unfold headOps
  by_cases hc : (k = areasKey || !truthy v) = true
  · rw [if_pos hc] at h ⊢; exact ⟨[], ops, done, rfl, h, rfl, .inl rfl⟩
  · rw [if_neg hc] at h ⊢
    by_cases hs : starts ['*'] k = true
    · rw [if_pos hs] at h ⊢
      cases v with
      | str p =>
        simp only at h ⊢
        cases hn : env.cwd p with
        | none => rw [hn] at h; exact ⟨[], ops, done, rfl, h, rfl, .inl rfl⟩
        | some names =>
          rw [hn] at h
          simp only at h ⊢
          cases ha : (wildNames k done names).mapM (fun n => packElem env path n (pjoin p n)) with
          | none => rw [ha] at h; cases h
          | some a =>
            rw [ha] at h
            cases hr : packIndex env path r done with
            | none => simp only [Option.bind_some, hr] at h; cases h
            | some rest =>
              simp only [Option.bind_some, hr, Option.map_some] at h
              injection h with h
              exact ⟨a, rest, done, rfl, hr, h.symm, .inl rfl⟩
      | null => cases h
      | scalar s => cases h
      | arr l => cases h
      | obj d => cases h
    · rw [if_neg hs] at h ⊢
      cases v with
      | obj d =>
        simp only at h ⊢
        cases ha : packIndex env (path ++ [k]) d [] with
        | none => rw [ha] at h; cases h
        | some a =>
          rw [ha] at h
          cases hr : packIndex env path r done with
          | none => simp only [Option.bind_some, hr] at h; cases h
          | some rest =>
            simp only [Option.bind_some, hr, Option.map_some] at h
            injection h with h
            exact ⟨a, rest, done, rfl, hr, h.symm, .inl rfl⟩
      | str p =>
        simp only at h ⊢
        cases ha : packElem env path k p with
        | none => rw [ha] at h; cases h
        | some op =>
          rw [ha] at h
          cases hr : packIndex env path r (done ++ [k]) with
          | none => simp only [Option.bind_some, hr] at h; cases h
          | some rest =>
            simp only [Option.bind_some, hr, Option.map_some] at h
            injection h with h
            exact ⟨[op], rest, done ++ [k], rfl, hr, h.symm, .inr rfl⟩
      | null => cases h
      | scalar s => cases h
      | arr l => cases h

/-- every entry of the index contributes its copies, and there are no others -/
theorem packIndex_get (env : Env) (path : List Text) (index : D) (hw : index.WF) : ∀ (done : List Text) (ops : List Op),
    packIndex env path index done = some ops →
    (∀ k v, index.get k = some v → ∃ a done', headOps env path k v done' = some a ∧ (∀ o ∈ a, o ∈ ops) ∧
      (∀ e ∈ done', e ∈ done ∨ ∃ s, index.get e = some (.str s) ∧ Ordinary e ∧ s ≠ [])) ∧
    (∀ o ∈ ops, ∃ k v a done', index.get k = some v ∧ headOps env path k v done' = some a ∧ o ∈ a) := by
  match index with
  | .nil =>
    intro done ops h
    rw [packIndex] at h; injection h with h; subst h
    exact ⟨fun k v h => (by cases h), fun o h => (by cases h)⟩
  | .cons k v r =>
    intro done ops h
    rw [D.WF] at hw
    have hstep : ∃ a rest done', headOps env path k v done = some a ∧ packIndex env path r done' = some rest ∧ ops = a ++ rest ∧
        (done' = done ∨ (done' = done ++ [k] ∧ ∃ s, v = .str s ∧ Ordinary k ∧ s ≠ [])) := by
      obtain ⟨a, rest, done', h1, h2, h3, h4⟩ := packIndex_cons env path k v r done ops h
      rcases h4 with h4 | h4
      · exact ⟨a, rest, done', h1, h2, h3, .inl h4⟩
      · by_cases hcase : ∃ s, v = .str s ∧ Ordinary k ∧ s ≠ []
        · exact ⟨a, rest, done', h1, h2, h3, .inr ⟨h4, hcase⟩⟩
        · -- in all other cases the list of completed entries does not grow
          have : packIndex env path r done = some rest ∨ ∃ rest', packIndex env path r done = some rest' ∧ ops = a ++ rest' := by
            have h' := h
            rw [packIndex_step] at h'
            by_cases hsk : (k = areasKey || !truthy v) = true
            · rw [if_pos hsk] at h'
              right
              unfold headOps at h1
              rw [if_pos hsk] at h1
              injection h1 with h1; subst h1
              exact ⟨ops, h', rfl⟩
            · rw [if_neg hsk] at h'
              have hsk2 : k ≠ areasKey ∧ truthy v = true := by
                constructor
                · intro hh; exact hsk (by simp [hh])
                · cases ht : truthy v with
                  | true => rfl
                  | false => exact absurd (by simp [ht]) hsk
              by_cases hst : starts ['*'] k = true
              · rw [if_pos hst] at h'
                unfold headOps at h1
                rw [if_neg hsk, if_pos hst] at h1
                cases v with
                | str p =>
                  simp only at h' h1
                  cases hn : env.cwd p with
                  | none => rw [hn] at h' h1; simp only at h' h1; injection h1 with h1; subst h1; exact .inr ⟨ops, h', rfl⟩
                  | some names =>
                    rw [hn] at h' h1
                    simp only at h' h1
                    rw [h1] at h'
                    cases hr : packIndex env path r done with
                    | none => simp only [Option.bind_some, hr] at h'; cases h'
                    | some rest' =>
                      simp only [Option.bind_some, hr, Option.map_some] at h'
                      injection h' with h'
                      exact .inr ⟨rest', rfl, h'.symm⟩
                | null => cases h'
                | scalar s => cases h'
                | arr l => cases h'
                | obj d => cases h'
              · rw [if_neg hst] at h'
                cases v with
                | obj d =>
                  unfold headOps at h1
                  rw [if_neg hsk, if_neg hst] at h1
                  simp only at h' h1
                  rw [h1] at h'
                  cases hr : packIndex env path r done with
                  | none => simp only [Option.bind_some, hr] at h'; cases h'
                  | some rest' =>
                    simp only [Option.bind_some, hr, Option.map_some] at h'
                    injection h' with h'
                    exact .inr ⟨rest', rfl, h'.symm⟩
                | str p =>
                  exfalso
                  refine hcase ⟨p, rfl, ⟨hsk2.1, by simpa using hst⟩, ?_⟩
                  rintro rfl
                  exact absurd hsk2.2 (by simp [truthy])
                | null => cases h'
                | scalar s => cases h'
                | arr l => cases h'
          rcases this with h5 | ⟨rest', h5, h6⟩
          · exact ⟨a, rest, done, h1, h5, h3, .inl rfl⟩
          · exact ⟨a, rest', done, h1, h5, h6, .inl rfl⟩
    obtain ⟨a, rest, done', h1, h2, h3, h4⟩ := hstep
    obtain ⟨ih1, ih2⟩ := packIndex_get env path r hw.2.2 done' rest h2
    constructor
    · intro x w hx
      rw [D.get] at hx
      by_cases e : k = x
      · rw [if_pos e] at hx; injection hx with hx; subst hx; subst e
        exact ⟨a, done, h1, fun o ho => by rw [h3]; simp [ho], fun e he => .inl he⟩
      · rw [if_neg e] at hx
        obtain ⟨b, d2, hb, hsub, hd2⟩ := ih1 x w hx
        refine ⟨b, d2, hb, fun o ho => by rw [h3]; simp [hsub o ho], ?_⟩
        intro y hy
        rcases hd2 y hy with hy | ⟨s, hs, ho⟩
        · rcases h4 with h4 | ⟨h4, s, rfl, ho, hs⟩
          · exact .inl (h4 ▸ hy)
          · rw [h4, List.mem_append, List.mem_singleton] at hy
            rcases hy with hy | hy
            · exact .inl hy
            · subst hy; exact .inr ⟨s, by rw [D.get, if_pos rfl], ho, hs⟩
        · refine .inr ⟨s, ?_, ho⟩
          rw [D.get, if_neg]
          · exact hs
          · rintro rfl; rw [(D.get_none r k).mpr hw.1] at hs; cases hs
    · intro o ho
      rw [h3, List.mem_append] at ho
      rcases ho with ho | ho
      · exact ⟨k, v, a, done, by rw [D.get, if_pos rfl], h1, ho⟩
      · obtain ⟨x, w, b, d2, hx, hb, hob⟩ := ih2 o ho
        refine ⟨x, w, b, d2, ?_, hb, hob⟩
        rw [D.get, if_neg]
        · exact hx
        · rintro rfl; rw [(D.get_none r k).mpr hw.1] at hx; cases hx

/-- **C24**: no indexed file is dropped: if packing the index succeeds, every entry with a text value below ordinary keys has
its copy, with the content found at that place -/
theorem C24_indexed_packed (env : Env) (p : List Text) : ∀ (index : D) (path done : List Text) (ops : List Op) (e s : Text), index.WF →
    packIndex env path index done = some ops → (J.obj index).at (p ++ [e]) = some (.str s) → s ≠ [] → (∀ k ∈ p ++ [e], Ordinary k) →
    ∃ c, env.root s = some c ∧ { dest := (path ++ p, e), content := c, deferred := isQueued e : Op } ∈ ops := by
  induction p with
  | nil =>
    intro index path done ops e s hw h hat hs ho
    obtain ⟨d, hd, hg⟩ := (at_last _ [] e _).mp hat
    rw [at_nil] at hd; injection hd with hd; injection hd with hd; subst hd
    obtain ⟨a, done', ha, hsub, _⟩ := (packIndex_get env path index hw done ops h).1 e _ hg
    have hoe := ho e (by simp)
    unfold headOps at ha
    rw [if_neg (by simp [hoe.1, truthy, hs]), if_neg (by rw [hoe.2]; simp)] at ha
    simp only [packElem] at ha
    cases hr : env.root s with
    | none => rw [hr] at ha; cases ha
    | some c =>
      rw [hr] at ha
      injection ha with ha; subst ha
      exact ⟨c, rfl, hsub _ (by simp)⟩
  | cons x q ih =>
    intro index path done ops e s hw h hat hs ho
    rw [List.cons_append, at_obj] at hat
    cases hg : index.get x with
    | none => rw [hg] at hat; cases hat
    | some v =>
      rw [hg] at hat
      change v.at (q ++ [e]) = _ at hat
      obtain ⟨d0, hd0, hg0⟩ := (at_last _ _ _ _).mp hat
      have hv : ∃ d, v = .obj d := by
        cases q with
        | nil => rw [at_nil] at hd0; injection hd0 with hd0; exact ⟨d0, hd0⟩
        | cons y z =>
          cases v with
          | obj d => exact ⟨d, rfl⟩
          | null => rw [at_leaf _ (by simp)] at hd0; cases hd0
          | str s => rw [at_leaf _ (by simp)] at hd0; cases hd0
          | scalar s => rw [at_leaf _ (by simp)] at hd0; cases hd0
          | arr s => rw [at_leaf _ (by simp)] at hd0; cases hd0
      obtain ⟨d, rfl⟩ := hv
      have ht : truthy (.obj d) = true := by
        cases d with
        | nil => cases q <;> (simp only [List.nil_append, List.cons_append] at hat; rw [at_obj] at hat; cases hat)
        | cons _ _ _ => rfl
      have hwd := D.get_wf index hw x _ hg
      rw [J.WF] at hwd
      obtain ⟨a, done', ha, hsub, _⟩ := (packIndex_get env path index hw done ops h).1 x _ hg
      have hox := ho x (by simp)
      unfold headOps at ha
      rw [if_neg (by simp [hox.1, ht]), if_neg (by rw [hox.2]; simp)] at ha
      obtain ⟨c, hc, hm⟩ := ih d (path ++ [x]) [] a e s hwd ha hat hs (fun k hk => ho k (List.mem_cons_of_mem x hk))
      refine ⟨c, hc, hsub _ ?_⟩
      simpa [List.append_assoc] using hm

theorem mapM_mem {α β : Type} (f : α → Option β) : ∀ (l : List α) (r : List β), l.mapM f = some r →
    (∀ x ∈ l, ∃ y ∈ r, f x = some y) ∧ (∀ y ∈ r, ∃ x ∈ l, f x = some y) := by
  intro l
  induction l with
  | nil => intro r h; rw [List.mapM_nil] at h; injection h with h; subst h; simp
  | cons a t ih =>
    intro r h
    rw [List.mapM_cons] at h
    cases ha : f a with
    | none => rw [ha] at h; cases h
    | some b =>
      cases ht : t.mapM f with
      | none => rw [ha, ht] at h; cases h
      | some u =>
        rw [ha, ht] at h
        injection h with h; subst h
        obtain ⟨i1, i2⟩ := ih u ht
        constructor
        · intro x hx
          rcases List.mem_cons.mp hx with rfl | hx
          · exact ⟨b, by simp, ha⟩
          · obtain ⟨y, hy, hf⟩ := i1 x hx; exact ⟨y, by simp [hy], hf⟩
        · intro y hy
          rcases List.mem_cons.mp hy with rfl | hy
          · exact ⟨a, by simp, ha⟩
          · obtain ⟨x, hx, hf⟩ := i2 y hy; exact ⟨x, by simp [hx], hf⟩

/-- **C24**: every file of the folder a `*` entry names is packed (by that entry or by an entry of its own), unless excluded -/
theorem C24_wildcard_packed (env : Env) (p : List Text) : ∀ (index : D) (path : List Text) (ops : List Op) (k s e : Text) (names : List (Text × Bool)), index.WF →
    packIndex env path index [] = some ops → (J.obj index).at (p ++ [k]) = some (.str s) → s ≠ [] → starts ['*'] k = true → k ≠ areasKey → (∀ x ∈ p, Ordinary x) →
    env.cwd s = some names → (e, true) ∈ names → e ∉ (split '-' k).tail →
    ∃ c, { dest := (path ++ p, e), content := c, deferred := isQueued e : Op } ∈ ops := by
  induction p with
  | nil =>
    intro index path ops k s e names hw h hat hs hst hka _ hn hmem hex
    obtain ⟨d, hd, hg⟩ := (at_last _ [] k _).mp hat
    rw [at_nil] at hd; injection hd with hd; injection hd with hd; subst hd
    obtain ⟨a, done', ha, hsub, hdone⟩ := (packIndex_get env path index hw [] ops h).1 k _ hg
    rw [List.append_nil]
    by_cases hed : e ∈ done'
    · rcases hdone e hed with h0 | ⟨s', hs', ho', hne'⟩
      · cases h0
      · obtain ⟨c, _, hc⟩ := C24_indexed_packed env [] index path [] ops e s' hw h ((at_last _ [] e _).mpr ⟨index, at_nil _, hs'⟩) hne'
          (by intro x hx; rw [List.nil_append, List.mem_singleton] at hx; rw [hx]; exact ho')
        rw [List.append_nil] at hc
        exact ⟨c, hc⟩
    · unfold headOps at ha
      rw [if_neg (by simp [hka, truthy, hs]), if_pos hst] at ha
      simp only [hn] at ha
      have hwn : e ∈ wildNames k done' names := by
        unfold wildNames
        refine List.mem_map.mpr ⟨(e, true), ?_, rfl⟩
        rw [List.mem_filter]
        exact ⟨hmem, by simp [hed, hex]⟩
      obtain ⟨o, ho, hoe⟩ := (mapM_mem _ _ _ ha).1 e hwn
      unfold packElem at hoe
      cases hr : env.root (pjoin s e) with
      | none => rw [hr] at hoe; cases hoe
      | some c =>
        rw [hr] at hoe; injection hoe with hoe
        subst hoe; exact ⟨c, hsub _ ho⟩
  | cons x q ih =>
    intro index path ops k s e names hw h hat hs hst hka ho hn hmem hex
    rw [List.cons_append, at_obj] at hat
    cases hg : index.get x with
    | none => rw [hg] at hat; cases hat
    | some v =>
      rw [hg] at hat
      change v.at (q ++ [k]) = _ at hat
      obtain ⟨d0, hd0, hg0⟩ := (at_last _ _ _ _).mp hat
      have hv : ∃ d, v = .obj d := by
        cases q with
        | nil => rw [at_nil] at hd0; injection hd0 with hd0; exact ⟨d0, hd0⟩
        | cons y z =>
          cases v with
          | obj d => exact ⟨d, rfl⟩
          | null => rw [at_leaf _ (by simp)] at hd0; cases hd0
          | str s => rw [at_leaf _ (by simp)] at hd0; cases hd0
          | scalar s => rw [at_leaf _ (by simp)] at hd0; cases hd0
          | arr s => rw [at_leaf _ (by simp)] at hd0; cases hd0
      obtain ⟨d, rfl⟩ := hv
      have ht : truthy (.obj d) = true := by
        cases d with
        | nil => cases q <;> (simp only [List.nil_append, List.cons_append] at hat; rw [at_obj] at hat; cases hat)
        | cons _ _ _ => rfl
      have hwd := D.get_wf index hw x _ hg
      rw [J.WF] at hwd
      obtain ⟨a, done', ha, hsub, _⟩ := (packIndex_get env path index hw [] ops h).1 x _ hg
      have hox := ho x (by simp)
      unfold headOps at ha
      rw [if_neg (by simp [hox.1, ht]), if_neg (by rw [hox.2]; simp)] at ha
      obtain ⟨c, hm⟩ := ih d (path ++ [x]) a k s e names hwd ha hat hs hst hka (fun y hy => ho y (by simp [hy])) hn hmem hex
      exact ⟨c, hsub _ (by simpa [List.append_assoc] using hm)⟩

/-- **C24**: nothing else is packed from the index: every copy comes from an entry of its own or from a `*` entry of its folder
that does not exclude the file -/
theorem C24_only_indexed (env : Env) (index : D) : ∀ (path done : List Text) (ops : List Op), index.WF →
    packIndex env path index done = some ops → ∀ o ∈ ops, ∃ p,
      o.dest.1 = path ++ p ∧ o.deferred = isQueued o.dest.2 ∧
      ((∃ s, (J.obj index).at (p ++ [o.dest.2]) = some (.str s) ∧ env.root s = some o.content) ∨
       (∃ k s names, (J.obj index).at (p ++ [k]) = some (.str s) ∧ starts ['*'] k = true ∧ env.cwd s = some names ∧
          (o.dest.2, true) ∈ names ∧ o.dest.2 ∉ (split '-' k).tail ∧ env.root (pjoin s o.dest.2) = some o.content)) := by
  intro path done ops hw h o ho
  obtain ⟨k, v, a, done', hg, ha, hoa⟩ := (packIndex_get env path index hw done ops h).2 o ho
  unfold headOps at ha
  by_cases hc : (k = areasKey || !truthy v) = true
  · rw [if_pos hc] at ha; injection ha with ha; subst ha; cases hoa
  · rw [if_neg hc] at ha
    by_cases hst : starts ['*'] k = true
    · rw [if_pos hst] at ha
      cases v with
      | str s =>
        simp only at ha
        cases hn : env.cwd s with
        | none => rw [hn] at ha; injection ha with ha; subst ha; cases hoa
        | some names =>
          rw [hn] at ha
          obtain ⟨n, hn1, hn2⟩ := (mapM_mem _ _ _ ha).2 o hoa
          unfold wildNames at hn1
          obtain ⟨⟨n', b⟩, hf, rfl⟩ := List.mem_map.mp hn1
          rw [List.mem_filter] at hf
          obtain ⟨hmem, hcond⟩ := hf
          simp only [Bool.and_eq_true, decide_eq_true_eq] at hcond
          unfold packElem at hn2
          cases hr : env.root (pjoin s n') with
          | none => simp only [hr] at hn2; cases hn2
          | some c =>
            simp only [hr] at hn2
            injection hn2 with hn2; subst hn2
            refine ⟨[], (List.append_nil path).symm, rfl, .inr ⟨k, s, names, ?_, hst, hn, ?_, hcond.1.2, hr⟩⟩
            · exact (at_last _ [] k _).mpr ⟨index, at_nil _, hg⟩
            · have hb : b = true := hcond.2
              rw [← hb]; exact hmem
      | null => cases ha
      | scalar s => cases ha
      | arr l => cases ha
      | obj d => cases ha
    · rw [if_neg hst] at ha
      cases v with
      | obj d =>
        simp only at ha
        have hsz := step_nested index k d hg
        have hwd := D.get_wf index hw k _ hg
        rw [J.WF] at hwd
        obtain ⟨p, h1, h2, h3⟩ := C24_only_indexed env d (path ++ [k]) [] a hwd ha o hoa
        have hatk : ∀ q x, (J.obj d).at q = some x → (J.obj index).at (k :: q) = some x := by
          intro q x hq; rw [at_obj, hg]; exact hq
        refine ⟨k :: p, by rw [h1]; simp, h2, ?_⟩
        rcases h3 with ⟨s, h3, h4⟩ | ⟨k', s, names, h3, h4⟩
        · exact .inl ⟨s, hatk _ _ h3, h4⟩
        · exact .inr ⟨k', s, names, hatk _ _ h3, h4⟩
      | str s =>
        simp only [packElem] at ha
        cases hr : env.root s with
        | none => rw [hr] at ha; cases ha
        | some c =>
          rw [hr] at ha
          injection ha with ha; subst ha
          rw [List.mem_singleton] at hoa
          subst hoa
          exact ⟨[], (List.append_nil path).symm, rfl, .inl ⟨s, (at_last _ [] k _).mpr ⟨index, at_nil _, hg⟩, hr⟩⟩
      | null => cases ha
      | scalar s => cases ha
      | arr l => cases ha
termination_by sizeOf index

/-- **C24**: every own file is packed from its own folder unless the index has already put a (non-queued) file there -/
theorem C24_own_packed (index : List Op) (own : Own) (f : Dest × Text) (hf : f ∈ own) :
    { dest := f.1, content := f.2, deferred := isQueued f.1.2 : Op } ∈ packOwn index own ∨
    ∃ o ∈ index, o.deferred = false ∧ o.dest = f.1 := by
  by_cases h : index.any (fun o => !o.deferred && o.dest = f.1) = true
  · right
    obtain ⟨o, ho, h2⟩ := List.any_eq_true.mp h
    simp only [Bool.and_eq_true, Bool.not_eq_true', decide_eq_true_eq] at h2
    exact ⟨o, ho, h2.1, h2.2⟩
  · left
    unfold packOwn
    refine List.mem_map.mpr ⟨f, ?_, rfl⟩
    rw [List.mem_filter]
    exact ⟨hf, by simpa using h⟩

/-- all copies know from their name whether they are queued -/
theorem packOps_deferred (env : Env) (index : D) (own : Own) (ops : List Op) (hw : index.WF) (h : packOps env index own = some ops) :
    ∀ o ∈ ops, o.deferred = isQueued o.dest.2 := by
  intro o ho
  unfold packOps at h
  cases hi : packIndex env [] index [] with
  | none => rw [hi] at h; cases h
  | some a =>
    rw [hi] at h
    injection h with h; subst h
    rcases List.mem_append.mp ho with ho | ho
    · obtain ⟨p, _, h2, _⟩ := C24_only_indexed env index [] [] a hw hi o ho
      exact h2
    · unfold packOwn at ho
      obtain ⟨f, _, rfl⟩ := List.mem_map.mp ho
      rfl

theorem final_mem (ops : List Op) (o : Op) (ho : o ∈ ops) (hu : ∀ o' ∈ ops, o'.dest = o.dest → o' = o) : finalContent ops o.dest = some o.content := by
  unfold finalContent
  have hm : o ∈ ops.filter (fun x => x.dest = o.dest) := by rw [List.mem_filter]; exact ⟨ho, by simp⟩
  have hall : ∀ x ∈ ops.filter (fun x => x.dest = o.dest), x = o := by
    intro x hx
    rw [List.mem_filter] at hx
    exact hu x hx.1 (by simpa using hx.2)
  cases hl : (ops.filter (fun x => x.dest = o.dest)).getLast? with
  | none => rw [List.getLast?_eq_none_iff] at hl; rw [hl] at hm; cases hm
  | some x => rw [hall x (List.mem_of_getLast? hl)]; rfl

theorem filter_mem (ops sched : List Op) (hp : sched.Perm (ops.filter (fun o => o.deferred))) (o : Op) :
    o ∈ ops.filter (fun o => !o.deferred) ++ sched ↔ o ∈ ops := by
  rw [List.mem_append, hp.mem_iff, List.mem_filter, List.mem_filter]
  cases o.deferred <;> simp

/-- **C24**: whatever order the queued copies finish in, a file with one copy ends up with the content of that copy -/
theorem C24_any_schedule (ops sched : List Op) (hp : sched.Perm (ops.filter (fun o => o.deferred))) (o : Op) (ho : o ∈ ops)
    (hu : ∀ o' ∈ ops, o'.dest = o.dest → o' = o) : packed ops sched o.dest = some o.content := by
  unfold packed
  refine final_mem _ o ((filter_mem ops sched hp o).mpr ho) ?_
  intro o' ho' hd
  exact hu o' ((filter_mem ops sched hp o').mp ho') hd

/-- **C24**: for a file that is not queued (neither module nor form elements) with one index entry the index decides, whatever the
source folder holds at that place -/
theorem C24_index_wins_plain (env : Env) (index : D) (own : Own) (a ops sched : List Op) (hw : index.WF)
    (hi : packIndex env [] index [] = some a) (h : packOps env index own = some ops)
    (hp : sched.Perm (ops.filter (fun o => o.deferred))) (o : Op) (ho : o ∈ a) (hq : isQueued o.dest.2 = false)
    (hu : ∀ o' ∈ a, o'.dest = o.dest → o' = o) : packed ops sched o.dest = some o.content := by
  unfold packOps at h
  rw [hi] at h
  injection h with h; subst h
  refine C24_any_schedule _ sched hp o (by simp [ho]) ?_
  intro o' ho' hd
  rcases List.mem_append.mp ho' with h1 | h1
  · exact hu o' h1 hd
  · exfalso
    obtain ⟨p, _, h2, _⟩ := C24_only_indexed env index [] [] a hw hi o ho
    unfold packOwn at h1
    obtain ⟨f, hf, rfl⟩ := List.mem_map.mp h1
    rw [List.mem_filter] at hf
    have := hf.2
    rw [Bool.not_eq_true', List.any_eq_false] at this
    refine this o ho ?_
    simp only at hd
    simp [h2, hq, hd]

/-- **C24, false in full**: a module (or form-element file) that is indexed and also lies in the source folder is queued twice:
which of the two contents is built depends on which task finishes last -/
theorem C24_code_race (env : Env) (e s c c' : Text) (ho : Ordinary e) (hs : s ≠ []) (hq : isQueued e = true) (hr : env.root s = some c) :
    ∃ ops s1 s2, packOps env (.cons e (.str s) .nil) [(([], e), c')] = some ops ∧
      s1.Perm (ops.filter (fun o => o.deferred)) ∧ s2.Perm (ops.filter (fun o => o.deferred)) ∧
      packed ops s1 ([], e) = some c' ∧ packed ops s2 ([], e) = some c := by
  have hi : packIndex env [] (.cons e (.str s) .nil) [] = some [{ dest := ([], e), content := c, deferred := true }] := by
    rw [packIndex_step, if_neg (by simp [ho.1, truthy, hs]), if_neg (by rw [ho.2]; simp)]
    simp only [packElem, hr, Option.map_some, Option.bind_some, hq]
    rw [packIndex]; rfl
  refine ⟨[{ dest := ([], e), content := c, deferred := true }, { dest := ([], e), content := c', deferred := true }],
    [{ dest := ([], e), content := c, deferred := true }, { dest := ([], e), content := c', deferred := true }],
    [{ dest := ([], e), content := c', deferred := true }, { dest := ([], e), content := c, deferred := true }], ?_, .refl _, .swap _ _ _, ?_, ?_⟩
  · unfold packOps
    rw [hi]
    unfold packOwn
    simp [hq]
  · simp [packed, finalContent]
  · simp [packed, finalContent]

/-- **C24, false in full**: the folder of a `*` entry is listed relative to the current directory; when it is not found there,
its files are left out without an error although they exist below the root of indexed files -/
theorem C24_wildcard_folder_missing (env : Env) (k s : Text) (hk : k ≠ areasKey) (hst : starts ['*'] k = true) (hs : s ≠ []) (hn : env.cwd s = none) :
    packIndex env [] (.cons k (.str s) .nil) [] = some [] := by
  rw [packIndex_step, if_neg (by simp [hk, truthy, hs]), if_pos hst]
  simp only [hn]
  rw [packIndex]

/-- **C24, false in full**: an entry of its own that stands after the `*` entry does not keep the `*` entry from packing the same
file too -/
theorem C24_exact_after_wildcard_twice (env : Env) (e s p c c' : Text) (ho : Ordinary e) (hs : s ≠ []) (hp : p ≠ [])
    (hstar : (['*'] : Text) ≠ areasKey) (hcwd : env.cwd p = some [(e, true)]) (hr : env.root s = some c) (hr' : env.root (pjoin p e) = some c') :
    packIndex env [] (.cons ['*'] (.str p) (.cons e (.str s) .nil)) [] =
      some [{ dest := ([], e), content := c', deferred := isQueued e }, { dest := ([], e), content := c, deferred := isQueued e }] := by
  have hstarts : starts ['*'] ['*'] = true := by decide
  have hw : wildNames ['*'] [] [(e, true)] = [e] := by
    unfold wildNames
    have : (split '-' ['*']).tail = [] := by decide
    rw [this]; simp
  rw [packIndex_step, if_neg (by simp [hstar, truthy, hp]), if_pos hstarts]
  simp only [hcwd]
  rw [hw, packIndex_step, if_neg (by simp [ho.1, truthy, hs]), if_neg (by rw [ho.2]; simp)]
  simp only [packElem, hr, Option.map_some, Option.bind_some, packIndex, List.mapM_cons, List.mapM_nil, hr']
  rfl

/-! sample: an index with an entry of its own before a `*` entry that excludes a file -/
def packIndexSample : D := .cons "Form".toList (.obj (.cons "a.txt".toList (.str "core/a.txt".toList) (.cons "*-c.txt".toList (.str "rest".toList) .nil))) .nil
def packEnvSample : Env where
  cwd p := if p = "rest".toList then some [("a.txt".toList, true), ("b.bsl".toList, true), ("c.txt".toList, true)] else none
  root p := if p = "core/a.txt".toList then some "A".toList else if p = "rest/b.bsl".toList then some "B".toList else none

set_option maxRecDepth 8000 in
example : packIndex packEnvSample [] packIndexSample [] =
    some [{ dest := (["Form".toList], "a.txt".toList), content := "A".toList, deferred := false },
      { dest := (["Form".toList], "b.bsl".toList), content := "B".toList, deferred := true }] := by decide +kernel

example : packIndexSample.WF := by
  simp [packIndexSample, D.WF, J.WF, D.keys]

end V8.Index
