import Verif.Index
namespace V8.Index
open V8.Str V8.Json V8.Descent

/-- `m` has everything `d` has, at the same places; only dictionaries may have grown -/
def Keeps (d m : D) : Prop :=
  ∀ p v, (J.obj d).at p = some v → ∃ v', (J.obj m).at p = some v' ∧ (v' = v ∨ ∃ a b, v = .obj a ∧ v' = .obj b)

theorem Keeps.refl (d : D) : Keeps d d := fun _ v h => ⟨v, h, .inl rfl⟩

theorem Keeps.trans {a b c : D} (h1 : Keeps a b) (h2 : Keeps b c) : Keeps a c := by
  intro p v h
  obtain ⟨v1, hv1, e1⟩ := h1 p v h
  obtain ⟨v2, hv2, e2⟩ := h2 p v1 hv1
  refine ⟨v2, hv2, ?_⟩
  rcases e1 with rfl | ⟨x, y, rfl, rfl⟩
  · exact e2
  · rcases e2 with rfl | ⟨z, w, _, rfl⟩
    · exact .inr ⟨_, _, rfl, rfl⟩
    · exact .inr ⟨_, _, rfl, rfl⟩

theorem Keeps.set_new (d : D) (k : Text) (v : J) (h : d.get k = none) : Keeps d (d.set k v) := by
  intro p w hp
  cases p with
  | nil => rw [at_nil] at hp; injection hp with hp; subst hp; exact ⟨_, at_nil _, .inr ⟨_, _, rfl, rfl⟩⟩
  | cons x r =>
    rw [at_obj] at hp
    refine ⟨w, ?_, .inl rfl⟩
    rw [at_obj, D.get_set, if_neg]
    · exact hp
    · rintro rfl; rw [h] at hp; cases hp

theorem Keeps.set_obj (d : D) (k : Text) (a b : D) (h : d.get k = some (.obj a)) (hk : Keeps a b) : Keeps d (d.set k (.obj b)) := by
  intro p w hp
  cases p with
  | nil => rw [at_nil] at hp; injection hp with hp; subst hp; exact ⟨_, at_nil _, .inr ⟨_, _, rfl, rfl⟩⟩
  | cons x r =>
    rw [at_obj] at hp
    rw [at_obj, D.get_set]
    by_cases e : k = x
    · subst e
      rw [h] at hp
      rw [if_pos rfl]
      exact hk r w hp
    · rw [if_neg e]; exact ⟨w, hp, .inl rfl⟩

theorem Keeps.get {d m : D} (h : Keeps d m) {k : Text} {v : J} (hg : d.get k = some v) (hv : ∀ a, v ≠ .obj a) : m.get k = some v := by
  obtain ⟨v', h1, h2⟩ := h [k] v (by rw [at_obj, hg]; exact at_nil v)
  rw [at_obj] at h1
  rcases h2 with rfl | ⟨a, _, rfl, _⟩
  · cases hm : m.get k with
    | none => rw [hm] at h1; cases h1
    | some w => rw [hm] at h1; change w.at [] = _ at h1; rw [at_nil] at h1; exact h1
  · exact absurd rfl (hv a)

theorem Keeps.get_obj {d m : D} (h : Keeps d m) {k : Text} {a : D} (hg : d.get k = some (.obj a)) :
    ∃ b, m.get k = some (.obj b) ∧ Keeps a b := by
  obtain ⟨v', h1, h2⟩ := h [k] (.obj a) (by rw [at_obj, hg]; exact at_nil _)
  rw [at_obj] at h1
  have hb : ∃ b, m.get k = some (.obj b) := by
    cases hm : m.get k with
    | none => rw [hm] at h1; cases h1
    | some w =>
      rw [hm] at h1; change w.at [] = _ at h1; rw [at_nil] at h1; injection h1 with h1; subst h1
      rcases h2 with rfl | ⟨_, b, _, rfl⟩
      · exact ⟨_, rfl⟩
      · exact ⟨_, rfl⟩
  obtain ⟨b, hb⟩ := hb
  refine ⟨b, hb, ?_⟩
  intro p v hp
  obtain ⟨v', h1, h2⟩ := h (k :: p) v (by rw [at_obj, hg]; exact hp)
  rw [at_obj, hb] at h1
  exact ⟨v', h1, h2⟩

/-- every file and folder of the tree is in the index -/
def Covers : D → Entries → Prop
  | _, .nil => True
  | m, .cons name .file r => (∃ e v, removeDescent name = some e ∧ m.get e = some v) ∧ Covers m r
  | m, .cons name (.dir es) r => removeDescent name = some name ∧
      ((∃ d, m.get name = some (.obj d) ∧ Covers d es) ∨ (∃ v, m.get name = some v ∧ (∀ d, v ≠ .obj d) ∧ es = .nil)) ∧ Covers m r

theorem Covers.mono (es : Entries) : ∀ (d m : D), Keeps d m → Covers d es → Covers m es := by
  match es with
  | .nil => intro d m _ _; simp [Covers]
  | .cons name .file r =>
    intro d m hk h
    rw [Covers] at h ⊢
    obtain ⟨⟨e, v, he, hv⟩, hr⟩ := h
    refine ⟨?_, Covers.mono r d m hk hr⟩
    cases v with
    | obj a => obtain ⟨b, hb, _⟩ := hk.get_obj hv; exact ⟨e, _, he, hb⟩
    | null => exact ⟨e, _, he, hk.get hv (by simp)⟩
    | str s => exact ⟨e, _, he, hk.get hv (by simp)⟩
    | scalar s => exact ⟨e, _, he, hk.get hv (by simp)⟩
    | arr s => exact ⟨e, _, he, hk.get hv (by simp)⟩
  | .cons name (.dir es) r =>
    intro d m hk h
    rw [Covers] at h ⊢
    obtain ⟨he, hd, hr⟩ := h
    refine ⟨he, ?_, Covers.mono r d m hk hr⟩
    rcases hd with ⟨a, ha, hc⟩ | ⟨v, hv, hn, hes⟩
    · obtain ⟨b, hb, hkb⟩ := hk.get_obj ha
      exact .inl ⟨b, hb, Covers.mono es a b hkb hc⟩
    · exact .inr ⟨v, hk.get hv hn, hn, hes⟩
termination_by sizeOf es

/-- an index that covers the tree is not changed -/
theorem update_covered (dst : Text) (es : Entries) : ∀ (m : D) (path : Text), Covers m es → updateIndex dst m path es = some m := by
  match es with
  | .nil => intro m path _; simp [updateIndex]
  | .cons name .file r =>
    intro m path h
    rw [Covers] at h
    obtain ⟨⟨e, v, he, hv⟩, hr⟩ := h
    rw [updateIndex, he]
    simp only [hv]
    exact update_covered dst r m path hr
  | .cons name (.dir es) r =>
    intro m path h
    rw [Covers] at h
    obtain ⟨he, hd, hr⟩ := h
    rw [updateIndex, he]
    simp only [if_true]
    rcases hd with ⟨a, ha, hc⟩ | ⟨v, hv, hn, hes⟩
    · rw [ha]
      simp only
      rw [update_covered dst es a _ hc]
      show updateIndex dst (m.set name (.obj a)) path r = some m
      rw [D.set_get m name _ ha]
      exact update_covered dst r m path hr
    · rw [hv, hes]
      have hrec := update_covered dst r m path hr
      cases v with
      | obj a => exact absurd rfl (hn a)
      | null => exact hrec
      | str s => exact hrec
      | scalar s => exact hrec
      | arr s => exact hrec
termination_by sizeOf es

/-- what an update does: keeps what was there and covers the tree -/
theorem update_spec (dst : Text) (es : Entries) : ∀ (d m : D) (path : Text), updateIndex dst d path es = some m → Keeps d m ∧ Covers m es := by
  match es with
  | .nil => intro d m path h; rw [updateIndex] at h; injection h with h; subst h; exact ⟨Keeps.refl d, by simp [Covers]⟩
  | .cons name .file r =>
    intro d m path h
    rw [updateIndex] at h
    cases he : removeDescent name with
    | none => rw [he] at h; cases h
    | some e =>
      rw [he] at h
      simp only at h
      rw [Covers]
      cases hv : d.get e with
      | none =>
        rw [hv] at h
        simp only at h
        obtain ⟨h1, h2⟩ := update_spec dst r _ m path h
        refine ⟨(Keeps.set_new d e _ hv).trans h1, ⟨e, .str (if dst = [] then [] else pjoin (pjoin dst path) e), he, ?_⟩, h2⟩
        exact h1.get (D.get_set d e e _ |>.trans (if_pos rfl)) (by simp)
      | some v =>
        rw [hv] at h
        simp only at h
        obtain ⟨h1, h2⟩ := update_spec dst r d m path h
        refine ⟨h1, ?_, h2⟩
        cases v with
        | obj a => obtain ⟨b, hb, _⟩ := h1.get_obj hv; exact ⟨e, _, he, hb⟩
        | null => exact ⟨e, _, he, h1.get hv (by simp)⟩
        | str s => exact ⟨e, _, he, h1.get hv (by simp)⟩
        | scalar s => exact ⟨e, _, he, h1.get hv (by simp)⟩
        | arr s => exact ⟨e, _, he, h1.get hv (by simp)⟩
  | .cons name (.dir es) r =>
    intro d m path h
    rw [updateIndex] at h
    cases he : removeDescent name with
    | none => rw [he] at h; cases h
    | some e =>
      rw [he] at h
      simp only at h
      by_cases hen : e = name
      case neg => rw [if_neg hen] at h; cases h
      subst hen
      rw [if_pos rfl] at h
      rw [Covers]
      have objCase : ∀ a, (∀ sub, Keeps a sub → Keeps d (d.set e (.obj sub))) →
          ((updateIndex dst a (pjoin path e) es).bind (fun sub => updateIndex dst (d.set e (.obj sub)) path r)) = some m →
          Keeps d m ∧ removeDescent e = some e ∧ ((∃ d, m.get e = some (.obj d) ∧ Covers d es) ∨ (∃ v, m.get e = some v ∧ (∀ d, v ≠ .obj d) ∧ es = .nil)) ∧ Covers m r := by
        intro a hset h
        cases hs : updateIndex dst a (pjoin path e) es with
        | none => rw [hs] at h; cases h
        | some sub =>
          rw [hs] at h
          obtain ⟨k1, c1⟩ := update_spec dst es a sub _ hs
          obtain ⟨k2, c2⟩ := update_spec dst r _ m path h
          obtain ⟨b, hb, kb⟩ := k2.get_obj (D.get_set d e e (.obj sub) |>.trans (if_pos rfl))
          exact ⟨(hset sub k1).trans k2, he, .inl ⟨b, hb, Covers.mono es sub b kb c1⟩, c2⟩
      cases hv : d.get e with
      | none =>
        rw [hv] at h
        exact objCase .nil (fun sub _ => Keeps.set_new d e _ hv) h
      | some v =>
        rw [hv] at h
        have other : (∀ a, v ≠ .obj a) → (if es.isEmpty then updateIndex dst d path r else none) = some m →
            Keeps d m ∧ removeDescent e = some e ∧ ((∃ d, m.get e = some (.obj d) ∧ Covers d es) ∨ (∃ v, m.get e = some v ∧ (∀ d, v ≠ .obj d) ∧ es = .nil)) ∧ Covers m r := by
          intro hn h
          cases es with
          | nil =>
            obtain ⟨k2, c2⟩ := update_spec dst r d m path h
            exact ⟨k2, he, .inr ⟨v, k2.get hv hn, hn, rfl⟩, c2⟩
          | cons _ _ _ => cases h
        cases v with
        | obj a => exact objCase a (fun sub hs => Keeps.set_obj d e a sub hv hs) h
        | null => exact other (by simp) h
        | str s => exact other (by simp) h
        | scalar s => exact other (by simp) h
        | arr s => exact other (by simp) h
termination_by sizeOf es

/-- the tree has the file `n` in the folder reached by `ds` -/
def HasFile : Entries → List Text → Text → Prop
  | .nil, _, _ => False
  | .cons name .file r, [], n => name = n ∨ HasFile r [] n
  | .cons _ .file r, d :: ds, n => HasFile r (d :: ds) n
  | .cons _ (.dir _) r, [], n => HasFile r [] n
  | .cons name (.dir es) r, d :: ds, n => (name = d ∧ HasFile es ds n) ∨ HasFile r (d :: ds) n

theorem covers_file (es : Entries) : ∀ (m : D) (ds : List Text) (n : Text), Covers m es → HasFile es ds n →
    ∃ e v, removeDescent n = some e ∧ (J.obj m).at (ds ++ [e]) = some v := by
  match es with
  | .nil => intro m ds n _ h; simp [HasFile] at h
  | .cons name .file r =>
    intro m ds n hc h
    rw [Covers] at hc
    cases ds with
    | nil =>
      rw [HasFile] at h
      rcases h with rfl | h
      · obtain ⟨⟨e, v, he, hv⟩, _⟩ := hc
        exact ⟨e, v, he, by rw [List.nil_append, at_obj, hv]; exact at_nil v⟩
      · exact covers_file r m [] n hc.2 h
    | cons d ds => rw [HasFile] at h; exact covers_file r m (d :: ds) n hc.2 h
  | .cons name (.dir es) r =>
    intro m ds n hc h
    rw [Covers] at hc
    cases ds with
    | nil => rw [HasFile] at h; exact covers_file r m [] n hc.2.2 h
    | cons d ds =>
      rw [HasFile] at h
      rcases h with ⟨rfl, h⟩ | h
      · rcases hc.2.1 with ⟨a, ha, hca⟩ | ⟨v, _, _, hes⟩
        · obtain ⟨e, v, he, hv⟩ := covers_file es a ds n hca h
          exact ⟨e, v, he, by rw [List.cons_append, at_obj, ha]; exact hv⟩
        · rw [hes] at h; simp [HasFile] at h
      · exact covers_file r m (d :: ds) n hc.2.2 h
termination_by sizeOf es

/-- the path below `path` of a file `e` in the folder reached by `ds` -/
def under (path : Text) (ds : List Text) : Text := ds.foldl pjoin path

/-- what an update adds -/
theorem update_adds (dst : Text) (es : Entries) : ∀ (d m : D) (path : Text), updateIndex dst d path es = some m →
    ∀ p v, (∀ a, v ≠ .obj a) → (J.obj m).at p = some v → (J.obj d).at p = some v ∨
      ∃ ds n e, HasFile es ds n ∧ removeDescent n = some e ∧ p = ds ++ [e] ∧
        v = .str (if dst = [] then [] else pjoin (pjoin dst (under path ds)) e) := by
  match es with
  | .nil => intro d m path h p v _ hp; rw [updateIndex] at h; injection h with h; subst h; exact .inl hp
  | .cons name .file r =>
    intro d m path h p v hv hp
    have lift : ∀ ds n, HasFile r ds n → HasFile (.cons name .file r) ds n := by
      intro ds n hh
      cases ds with
      | nil => rw [HasFile]; exact .inr hh
      | cons a b => rw [HasFile]; exact hh
    rw [updateIndex] at h
    cases he : removeDescent name with
    | none => rw [he] at h; cases h
    | some e =>
      rw [he] at h
      simp only at h
      cases hg : d.get e with
      | some w =>
        rw [hg] at h; simp only at h
        rcases update_adds dst r d m path h p v hv hp with h1 | ⟨ds, n, e', h1, h2⟩
        · exact .inl h1
        · exact .inr ⟨ds, n, e', lift ds n h1, h2⟩
      | none =>
        rw [hg] at h; simp only at h
        rcases update_adds dst r _ m path h p v hv hp with h1 | ⟨ds, n, e', h1, h2⟩
        · cases p with
          | nil => rw [at_nil] at h1; injection h1 with h1; exact absurd h1.symm (hv _)
          | cons x q =>
            rw [at_obj, D.get_set] at h1
            by_cases hx : e = x
            · subst hx
              rw [if_pos rfl] at h1
              cases q with
              | nil =>
                change (J.str _).at [] = some v at h1
                rw [at_nil] at h1; injection h1 with h1
                refine .inr ⟨[], name, e, ?_, he, rfl, h1.symm⟩
                rw [HasFile]; exact .inl rfl
              | cons a b =>
                change (J.str _).at (a :: b) = some v at h1
                rw [at_leaf _ (fun d hd => by cases hd)] at h1; cases h1
            · rw [if_neg hx] at h1
              exact .inl (by rw [at_obj]; exact h1)
        · exact .inr ⟨ds, n, e', lift ds n h1, h2⟩
  | .cons name (.dir es) r =>
    intro d m path h p v hv hp
    have lift : ∀ ds n, HasFile r ds n → HasFile (.cons name (.dir es) r) ds n := by
      intro ds n hh
      cases ds with
      | nil => rw [HasFile]; exact hh
      | cons a b => rw [HasFile]; exact .inr hh
    rw [updateIndex] at h
    cases he : removeDescent name with
    | none => rw [he] at h; cases h
    | some e =>
      rw [he] at h
      simp only at h
      by_cases hen : e = name
      case neg => rw [if_neg hen] at h; cases h
      subst hen
      rw [if_pos rfl] at h
      have objCase : ∀ a, (d.get e = none ∧ a = .nil ∨ d.get e = some (.obj a)) →
          ((updateIndex dst a (pjoin path e) es).bind (fun sub => updateIndex dst (d.set e (.obj sub)) path r)) = some m →
          (J.obj d).at p = some v ∨ ∃ ds n e', HasFile (.cons e (.dir es) r) ds n ∧ removeDescent n = some e' ∧ p = ds ++ [e'] ∧
            v = .str (if dst = [] then [] else pjoin (pjoin dst (under path ds)) e') := by
        intro a ha h
        cases hs : updateIndex dst a (pjoin path e) es with
        | none => rw [hs] at h; cases h
        | some sub =>
          rw [hs] at h
          rcases update_adds dst r _ m path h p v hv hp with h1 | ⟨ds, n, e', h1, h2⟩
          · cases p with
            | nil => rw [at_nil] at h1; injection h1 with h1; exact absurd h1.symm (hv _)
            | cons x q =>
              rw [at_obj, D.get_set] at h1
              by_cases hx : e = x
              · subst hx
                rw [if_pos rfl] at h1
                change (J.obj sub).at q = some v at h1
                rcases update_adds dst es a sub _ hs q v hv h1 with h2 | ⟨ds, n, e', h2, h3, h4, h5⟩
                · rcases ha with ⟨hn, rfl⟩ | ha
                  · exfalso
                    cases q with
                    | nil => rw [at_nil] at h2; injection h2 with h2; exact hv _ h2.symm
                    | cons y z => rw [at_obj] at h2; cases h2
                  · left; rw [at_obj, ha]; exact h2
                · right
                  refine ⟨e :: ds, n, e', ?_, h3, by rw [h4]; rfl, by rw [h5]; rfl⟩
                  rw [HasFile]; exact .inl ⟨rfl, h2⟩
              · rw [if_neg hx] at h1
                exact .inl (by rw [at_obj]; exact h1)
          · exact .inr ⟨ds, n, e', lift ds n h1, h2⟩
      cases hg : d.get e with
      | none => rw [hg] at h; exact objCase .nil (.inl ⟨hg, rfl⟩) h
      | some w =>
        rw [hg] at h
        have other : (if es.isEmpty then updateIndex dst d path r else none) = some m →
            (J.obj d).at p = some v ∨ ∃ ds n e', HasFile (.cons e (.dir es) r) ds n ∧ removeDescent n = some e' ∧ p = ds ++ [e'] ∧
            v = .str (if dst = [] then [] else pjoin (pjoin dst (under path ds)) e') := by
          intro h
          cases es with
          | nil =>
            rcases update_adds dst r d m path h p v hv hp with h1 | ⟨ds, n, e', h1, h2⟩
            · exact .inl h1
            · exact .inr ⟨ds, n, e', lift ds n h1, h2⟩
          | cons _ _ _ => cases h
        cases w with
        | obj a => exact objCase a (.inr hg) h
        | null => exact other h
        | str s => exact other h
        | scalar s => exact other h
        | arr s => exact other h
termination_by sizeOf es

end V8.Index
