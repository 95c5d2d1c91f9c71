import Verif.OFormLemmas
/-
The round trip of a whole ordinary form.
-/
namespace V8.OForm
open V8.Brace V8.Dec V8.Form
open V8.Module (strEncode strDecode)

theorem attrsLoop_rt (ni : Nat) : ∀ (n : Nat) (l : List Val) (as : List Rec), attrsLoop ni n l = some as →
    as.map (·.raw) = l.take n ∧ as.length = n ∧ n ≤ l.length
  | 0, l, as, h => by
    rw [attrsLoop] at h
    cases h
    exact ⟨rfl, rfl, Nat.zero_le _⟩
  | n + 1, [], as, h => by cases h
  | n + 1, v :: r, as, h => by
    rw [attrsLoop] at h
    cases h1 : attrOut ni v with
    | none => rw [h1] at h; cases h
    | some a =>
      cases h2 : attrsLoop ni n r with
      | none => rw [h1, h2] at h; cases h
      | some as' =>
        rw [h1, h2] at h
        cases h
        obtain ⟨i1, i2, i3⟩ := attrsLoop_rt ni n r as' h2
        have ha : a.raw = v := by
          rw [attrOut] at h1
          cases h3 : nameAt v ni with
          | none => rw [h3] at h1; cases h1
          | some x =>
            cases h4 : (idx v 0).bind (idx · 0) with
            | none => rw [h3, h4] at h1; cases h1
            | some y => rw [h3, h4] at h1; cases h1; rfl
        refine ⟨?_, by rw [List.length_cons, i2], by rw [List.length_cons]; omega⟩
        rw [List.map_cons, ha, i1]
        rfl

theorem marker_ne_num (n : Nat) : showNat n ≠ marker := by
  intro h
  have h1 := parse_showNat n
  rw [h] at h1
  cases (show (none : Option Int) = some (n : Int) from h1)

theorem attrs_rt (ni : Nat) (al al' : List Val) (attrs : Option (List Rec)) (h : attrsOut ni al = some (al', attrs)) :
    attrsIn attrs al' = some al := by
  rw [attrsOut] at h
  cases hc : countAt al 0 with
  | none => rw [hc] at h; cases h
  | some n =>
    rw [hc] at h
    have h0 := countAt_some al 0 n hc
    cases al with
    | nil => cases h0
    | cons v t =>
      simp only [List.getElem?_cons_zero, Option.some.injEq] at h0
      cases n with
      | zero =>
        cases h
        rw [attrsIn.eq_def]
        simp only
        rw [if_neg]
        rw [h0]
        intro e
        exact marker_ne_num 0 (Val.str.inj e)
      | succ n =>
        simp only at h
        cases hl : attrsLoop ni (n + 1) ((v :: t).drop 1) with
        | none => rw [hl] at h; cases h
        | some as =>
          rw [hl] at h
          cases h
          obtain ⟨i1, i2, i3⟩ := attrsLoop_rt ni _ _ _ hl
          rw [attrsIn.eq_def]
          simp only
          rw [if_pos trivial]
          match as, i2, i1 with
          | a :: as, i2, i1 =>
            show some (Val.str (showNat (a :: as).length) :: (List.map (fun x => x.raw) (a :: as) ++ List.drop (n + 2) (v :: t))) = some (v :: t)
            rw [i1, i2, h0]
            simp only [List.drop_succ_cons, List.drop_zero, List.take_append_drop]

theorem linksLoop_names (I : List (Val × Text)) : ∀ (n : Nat) (l : List Val) (P : List (Val × Text)), linksLoop I n l = some P →
    ∀ e ∈ P, ∃ k, (k, e.2) ∈ I
  | 0, l, P, h => by
    rw [linksLoop] at h
    cases h
    intro e he
    cases he
  | n + 1, [], P, h => by cases h
  | n + 1, v :: r, P, h => by
    rw [linksLoop] at h
    cases h1 : idx v 0 with
    | none => rw [h1] at h; cases h
    | some e =>
      cases h2 : ((idx v 1).bind (idx · 1)).bind (idx · 0) with
      | none => rw [h1, h2] at h; cases h
      | some a =>
        cases h3 : linksLoop I n r with
        | none => rw [h1, h2, h3] at h; cases h
        | some rest =>
          rw [h1, h2, h3] at h
          simp only at h
          have ih := linksLoop_names I n r rest h3
          by_cases ha : hashable a = false
          · rw [if_pos ha] at h; cases h
          · rw [if_neg ha] at h
            cases hd : dictGet I a with
            | none => rw [hd] at h; cases h; exact ih
            | some name =>
              rw [hd] at h
              simp only at h
              by_cases he : hashable e = false
              · rw [if_pos he] at h; cases h
              · rw [if_neg he] at h
                cases h
                intro x hx
                rcases List.mem_cons.mp hx with hx | hx
                · rw [hx]; exact ⟨a, dictGet_some I a name hd⟩
                · exact ih x hx

theorem dictGet_key {α β : Type} [DecidableEq α] (d : List (α × β)) (k : α) (v : β) (h : (k, v) ∈ d) : ∃ w, dictGet d k = some w := by
  rw [dictGet]
  cases hf : d.reverse.find? (fun e => decide (e.1 = k)) with
  | some e => exact ⟨_, rfl⟩
  | none =>
    rw [List.find?_eq_none] at hf
    have := hf (k, v) (List.mem_reverse.mpr h)
    simp at this

/-- the identifiers of the attributes are not empty -/
def IdsOk (attrs : Option (List Rec)) : Prop := ∀ l, attrs = some l → ∀ a ∈ l, truthy a.id = true

theorem props_found (attrs : Option (List Rec)) (links : Option Val) (P : List (Val × Text)) (h : elemProps attrs links = some P)
    (hi : IdsOk attrs) : ∀ e ∈ P, propFound (attrsByName attrs) (nonEmpty (some e.2)) = true := by
  intro e he
  cases attrs with
  | none => cases h; cases he
  | some l =>
    rw [elemProps.eq_def] at h
    simp only at h
    by_cases hl : l = []
    · rw [if_pos hl] at h; cases h; cases he
    · rw [if_neg hl] at h
      by_cases hall : l.all (fun a => hashable a.id) = false
      · rw [if_pos hall] at h; cases h
      · rw [if_neg hall] at h
        cases hs : links.bind seq with
        | none => rw [hs] at h; cases h
        | some ls =>
          rw [hs] at h
          simp only at h
          cases hn : countAt ls 0 with
          | none => rw [hn] at h; cases h
          | some n =>
            rw [hn] at h
            obtain ⟨k, hk⟩ := linksLoop_names _ _ _ _ h e he
            rw [List.mem_map] at hk
            obtain ⟨a, ha, hka⟩ := hk
            obtain ⟨ename, evals⟩ := e
            cases hka
            have hm : (a.name, a.id) ∈ attrsByName (some l) := List.mem_map.mpr ⟨a, ha, rfl⟩
            obtain ⟨w, hw⟩ := dictGet_key _ _ _ hm
            have hw2 := dictGet_some _ _ _ hw
            rw [attrsByName, List.mem_map] at hw2
            obtain ⟨b, hb, hbw⟩ := hw2
            have hbi : b.id = w := (Prod.mk.inj hbw).2
            have ht := hi l rfl b hb
            show propFound (attrsByName (some l)) (nonEmpty (some a.name)) = true
            generalize a.name = nm at hw
            cases nm with
            | nil => rfl
            | cons c t =>
              show propFound _ (some (c :: t)) = true
              rw [propFound.eq_def]
              simp only
              rw [hw]
              simp only
              rw [← hbi]
              exact ht

/-- the panel of the form itself is in the usual form -/
structure TidyMain (panel : List Val) : Prop where
  pages : ∀ pr, get2 panel 1 1 = some (.list pr) → TidyPages pr
  elems : ∀ er, panel[2]? = some (.list er) → TidyElems er

/-- the panels nested in the panel of the form -/
def innerPanels (depth : Nat) (panel : List Val) : List (List Val) := match (panel[2]? : Option Val) with
  | some (.list er) => panels depth er
  | _ => []

theorem main_rt (P : List (Val × Text)) (N : List (Text × Val)) (D : List (Text × Entry))
    (hP : ∀ e ∈ P, propFound N (nonEmpty (some e.2)) = true) (depth : Nat) (panel panel' : List Val) (nodes : List Node)
    (es : List (Text × Entry)) (h : mainOut P depth panel = some (panel', nodes, es)) (ht : TidyMain panel)
    (hT : ∀ p ∈ innerPanels depth panel, TidyPanel p) (hR : Ready N D nodes es) : mainIn N D depth nodes panel' = some panel := by
  rw [mainOut] at h
  cases hg : get2 panel 1 1 with
  | none => rw [hg] at h; cases h
  | some w =>
    cases w with
    | none => rw [hg] at h; cases h
    | str _ => rw [hg] at h; cases h
    | list pr =>
      rw [hg] at h
      simp only at h
      cases hp : pagesOut [] pr with
      | none => rw [hp] at h; cases h
      | some q =>
        obtain ⟨pr', names, es1⟩ := q
        rw [hp] at h
        simp only at h
        cases he : panel[2]? with
        | none => rw [he] at h; cases h
        | some x =>
          cases x with
          | none => rw [he] at h; cases h
          | str _ => rw [he] at h; cases h
          | list er =>
            rw [he] at h
            simp only at h
            cases hel : elemsOut (elemOut P depth [] names) er with
            | none => rw [hel] at h; cases h
            | some q2 =>
              obtain ⟨er', nodes', es2⟩ := q2
              rw [hel] at h
              cases h
              have hpages := pages_rt D _ pr pr' names es1 hp (ht.pages pr hg) (fun e hm => hR.look e (List.mem_append_left _ hm))
              have hinner : innerPanels depth panel = panels depth er := by rw [innerPanels, he]
              rw [hinner] at hT
              have helems := elems_rt N D (elemOut P depth [] names)
                (elemIn N D depth []) (fun raw => ∀ p ∈ panels depth [.list raw], TidyPanel p)
                (fun k raw node es h hk hT hR => elem_rt P N D hP depth _ names k raw node es h hk hT hR) er er' nodes es2 hel
                (by
                  intro raw2 hm p hp2
                  apply hT
                  cases depth with
                  | zero => cases hp2
                  | succ d =>
                    rw [panels, List.mem_flatMap] at hp2 ⊢
                    obtain ⟨v, hv, hp3⟩ := hp2
                    rw [List.mem_singleton] at hv
                    exact ⟨v, by rw [hv]; exact hm, hp3⟩)
                (ht.elems er he)
                ⟨hR.names, fun e hm => hR.look e (List.mem_append_right _ hm)⟩
              have hlt : 2 < panel.length := by rw [List.getElem?_eq_some_iff] at he; exact he.1
              rw [mainIn, get2_set _ _ _ _ _ (by omega), get2_set2 panel 1 1 _ _ hg]
              simp only
              rw [hpages]
              simp only
              rw [List.getElem?_set_self (by rw [set2_length]; exact hlt)]
              simp only
              rw [helems]
              simp only
              rw [set2_set _ _ _ _ _ _ (by omega), set2_set2 panel 1 1 _ _ hg, List.set_set, set_same panel 2 _ he]

theorem get2_set2_ne (raw : List Val) (i j k l : Nat) (v : Val) (h : k ≠ i) : get2 (set2 raw i j v) k l = get2 raw k l := by
  rw [get2, get2, set2_ne _ _ _ _ _ h]

theorem set2_comm (raw : List Val) (i j k l : Nat) (v w : Val) (h : i ≠ k) : set2 (set2 raw i j v) k l w = set2 (set2 raw k l w) i j v := by
  rw [set2, set2_ne _ _ _ _ _ (Ne.symm h)]
  cases hk : raw[k]? with
  | none =>
    have : set2 raw k l w = raw := by rw [set2, hk]
    rw [this]
  | some x =>
    cases x with
    | none =>
      have : set2 raw k l w = raw := by rw [set2, hk]
      rw [this]
    | str _ =>
      have : set2 raw k l w = raw := by rw [set2, hk]
      rw [this]
    | list lk =>
      simp only
      have : set2 raw k l w = raw.set k (.list (lk.set l w)) := by rw [set2, hk]
      rw [this, set2_set _ _ _ _ _ _ (Ne.symm h)]

/-- what an ordinary form must be like to survive: the data is in the usual form (see `TidyPages`, `TidyElems`), all elements have names, all pages
and elements have different paths, the identifiers of attributes are not empty -/
structure Tidy (depth : Nat) (raw : List Val) (src : Src) : Prop where
  main : ∀ panel, get2 raw 1 2 = some (.list panel) → TidyMain panel
  inner : ∀ panel, get2 raw 1 2 = some (.list panel) → ∀ p ∈ innerPanels depth panel, TidyPanel p
  names : ∀ t ∈ allNames src.tree, t ≠ []
  keys : (src.data.map (·.1)).Nodup
  ids : IdsOk src.attrs

theorem form_rt (ni depth : Nat) (raw raw' : List Val) (src : Src) (h : formOut ni depth raw = some (raw', src)) (ht : Tidy depth raw src) :
    formIn depth raw' src = some raw := by
  rw [formOut] at h
  cases hg : get2 raw 2 2 with
  | none => rw [hg] at h; cases h
  | some w =>
    cases w with
    | none => rw [hg] at h; cases h
    | str _ => rw [hg] at h; cases h
    | list al =>
      rw [hg] at h
      simp only at h
      cases ha : attrsOut ni al with
      | none => rw [ha] at h; cases h
      | some q =>
        obtain ⟨al', attrs⟩ := q
        rw [ha] at h
        simp only at h
        rw [get2_set2_ne _ _ _ _ _ _ (by omega)] at h
        cases hp : get2 raw 1 2 with
        | none => rw [hp] at h; cases h
        | some w =>
          cases w with
          | none => rw [hp] at h; cases h
          | str _ => rw [hp] at h; cases h
          | list panel =>
            rw [hp] at h
            simp only at h
            by_cases hk : panel[0]? ≠ some (.str panelKind)
            · rw [if_pos hk] at h; cases h
            · rw [if_neg hk] at h
              cases hpr : elemProps attrs (get2 (set2 raw 2 2 (.list al')) 2 3) with
              | none => rw [hpr] at h; cases h
              | some P =>
                rw [hpr] at h
                simp only at h
                cases hm : mainOut P depth panel with
                | none => rw [hm] at h; cases h
                | some q =>
                  obtain ⟨panel', nodes, es⟩ := q
                  rw [hm] at h
                  cases h
                  have hfound := props_found attrs _ P hpr ht.ids
                  have hmain := main_rt P (attrsByName attrs) es hfound depth panel panel' nodes es hm (ht.main panel hp)
                    (ht.inner panel hp) ⟨ht.names, fun e he => dictGet_mem es ht.keys e he⟩
                  have hattrs := attrs_rt ni al al' attrs ha
                  rw [formIn, get2_set2_ne _ _ _ _ _ _ (by omega), get2_set2 raw 2 2 _ _ hg]
                  simp only
                  rw [hattrs]
                  simp only
                  rw [set2_comm _ _ _ _ _ _ _ (by omega), set2_set2 raw 2 2 _ _ hg, get2_set2 raw 1 2 _ _ hp]
                  simp only
                  rw [hmain]
                  simp only
                  rw [set2_set2 raw 1 2 _ _ hp]

end V8.OForm
