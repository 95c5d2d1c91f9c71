import Verif.OFormAutoPages
/-
Entries, names and loops of ordinary forms with the option auto_include.
-/
namespace V8.OAuto
open V8.Brace V8.Dec
open V8.Form (count countAt dictGet marker nonEmpty calcOffset truthy Rec countAt_congr countAt_some idx nameAt dictGet_mem dictGet_some hashable seq)
open V8.OForm hiding formOut formIn elemOut elemIn elemsOut elemsIn elemsLoop

/-! ### the entries -/

theorem dictSet_keys (es : List (Text × Entry)) (k : Text) (v : Entry) : (dictSet es k v).map (·.1) = es.map (·.1) := by
  rw [dictSet, List.map_map]
  apply List.map_congr_left
  intro e _
  show (if e.1 = k then (k, v) else e).1 = e.1
  by_cases h : e.1 = k
  · rw [if_pos h, h]
  · rw [if_neg h]

theorem find_map_set (k k' : Text) (v : Entry) : ∀ (l : List (Text × Entry)),
    ((l.map (fun e => if e.1 = k then (k, v) else e)).find? (fun e => decide (e.1 = k'))).map (·.2) =
      if k' = k then ((l.find? (fun e => decide (e.1 = k))).map (·.2)).map (fun _ => v) else (l.find? (fun e => decide (e.1 = k'))).map (·.2)
  | [] => by by_cases h : k' = k <;> simp [h]
  | e :: r => by
    have ih := find_map_set k k' v r
    rw [List.map_cons]
    by_cases hk : k' = k
    · subst hk
      rw [if_pos rfl] at ih ⊢
      by_cases he : e.1 = k'
      · rw [if_pos he, List.find?_cons_of_pos (by simp), List.find?_cons_of_pos (by simpa using he)]
        rfl
      · rw [if_neg he, List.find?_cons_of_neg (by simpa using he), List.find?_cons_of_neg (by simpa using he), ih]
    · rw [if_neg hk] at ih ⊢
      by_cases he : e.1 = k
      · rw [if_pos he, List.find?_cons_of_neg (by simpa using fun h => hk h.symm), List.find?_cons_of_neg (by rw [he]; simpa using fun h => hk h.symm), ih]
      · rw [if_neg he]
        by_cases he' : e.1 = k'
        · rw [List.find?_cons_of_pos (by simpa using he'), List.find?_cons_of_pos (by simpa using he')]
        · rw [List.find?_cons_of_neg (by simpa using he'), List.find?_cons_of_neg (by simpa using he'), ih]

theorem dictGet_set (es : List (Text × Entry)) (k k' : Text) (v : Entry) :
    dictGet (dictSet es k v) k' = if k' = k then (dictGet es k).map (fun _ => v) else dictGet es k' := by
  rw [dictGet, dictGet, dictGet, dictSet, ← List.map_reverse]
  exact find_map_set k k' v es.reverse

/-- what happens to the entries when the references get names -/
theorem nameAll_spec (index : List (Val × Text)) (path : Text) : ∀ (keys : List Text) (es es' : List (Text × Entry)),
    nameAll index path keys es = some es' → keys.Nodup →
    es'.map (·.1) = es.map (·.1) ∧ (∀ k, k ∉ keys → dictGet es' k = dictGet es k) ∧
    ∀ k ∈ keys, ∀ raw prop, dictGet es k = some (.elem raw prop) → ∃ a a1, placeOf raw = some a ∧
      mapRefs (toName index path (fun _ => k.drop path.length)) (toName index path id) a = some a1 ∧
      dictGet es' k = some (.elem (setPlace raw a1) prop)
  | [], es, es', h, _ => by
    cases h
    exact ⟨rfl, fun _ _ => rfl, fun k hk => by cases hk⟩
  | k :: r, es, es', h, hn => by
    rw [nameAll, Option.bind_eq_some_iff] at h
    obtain ⟨es1, h1, h2⟩ := h
    obtain ⟨i1, i2, i3⟩ := nameAll_spec index path r es1 es' h2 (List.nodup_cons.mp hn).2
    have hkr := (List.nodup_cons.mp hn).1
    rw [nameRefs] at h1
    cases hg : dictGet es k with
    | none => rw [hg] at h1; cases h1
    | some e =>
      cases e with
      | page _ _ =>
        rw [hg] at h1
        cases h1
        refine ⟨i1, fun k' hk' => i2 k' (fun hm => hk' (List.mem_cons_of_mem _ hm)), ?_⟩
        intro k' hk' raw prop hr
        rcases List.mem_cons.mp hk' with rfl | hm
        · rw [hg] at hr; cases hr
        · exact i3 k' hm raw prop hr
      | pages _ =>
        rw [hg] at h1
        cases h1
        refine ⟨i1, fun k' hk' => i2 k' (fun hm => hk' (List.mem_cons_of_mem _ hm)), ?_⟩
        intro k' hk' raw prop hr
        rcases List.mem_cons.mp hk' with rfl | hm
        · rw [hg] at hr; cases hr
        · exact i3 k' hm raw prop hr
      | elem raw prop =>
        rw [hg] at h1
        simp only [Option.bind_eq_some_iff, Option.map_eq_some_iff] at h1
        obtain ⟨a, ha, a1, ha1, rfl⟩ := h1
        rw [dictSet_keys] at i1
        refine ⟨i1, ?_, ?_⟩
        · intro k' hk'
          rw [i2 k' (fun hm => hk' (List.mem_cons_of_mem _ hm)), dictGet_set, if_neg (fun e => hk' (by rw [e]; exact List.mem_cons_self))]
        · intro k' hk' raw' prop' hr
          rcases List.mem_cons.mp hk' with rfl | hm
          · rw [hg] at hr
            cases hr
            refine ⟨a, a1, ha, ha1, ?_⟩
            rw [i2 k' hkr, dictGet_set, if_pos rfl, hg]
            rfl
          · have hne : k' ≠ k := fun e => hkr (by rw [← e]; exact hm)
            apply i3 k' hm raw' prop'
            rw [dictGet_set, if_neg hne]
            exact hr

/-! ### names -/

theorem calcId_page (path page : Text) (h : page ≠ []) : calcId path page [] = pageId path page := by
  rw [calcId, pageId]
  by_cases hp : path = []
  · rw [if_pos hp, hp, List.filter_cons_of_neg (by simp), List.filter_cons_of_pos (by simpa using h), List.filter_cons_of_neg (by simp)]
    rfl
  · rw [if_neg hp, List.filter_cons_of_pos (by simpa using hp), List.filter_cons_of_pos (by simpa using h), List.filter_cons_of_neg (by simp)]
    rfl

theorem calcId_elem (path page name : Text) (hp : page ≠ []) (hn : name ≠ []) : calcId path page name = pageId path page ++ '/' :: name := by
  rw [calcId, pageId]
  by_cases h : path = []
  · rw [if_pos h, h, List.filter_cons_of_neg (by simp), List.filter_cons_of_pos (by simpa using hp), List.filter_cons_of_pos (by simpa using hn)]
    rfl
  · rw [if_neg h, List.filter_cons_of_pos (by simpa using h), List.filter_cons_of_pos (by simpa using hp), List.filter_cons_of_pos (by simpa using hn)]
    show path ++ '/' :: (page ++ '/' :: name) = (path ++ '/' :: page) ++ '/' :: name
    simp

theorem pageId_ne (path page : Text) (h : page ≠ []) : pageId path page ≠ [] := by
  rw [pageId]
  by_cases hp : path = []
  · rw [if_pos hp]; exact h
  · rw [if_neg hp]; simp

theorem calcId_nested (pid name : Text) (hp : pid ≠ []) (hn : name ≠ []) : calcId pid name [] = pid ++ '/' :: name := by
  rw [calcId_page pid name hn, pageId, if_neg hp]

theorem pageId_inj (path p q : Text) (h : pageId path p = pageId path q) : p = q := by
  rw [pageId, pageId] at h
  by_cases hp : path = []
  · rw [if_pos hp, if_pos hp] at h; exact h
  · rw [if_neg hp, if_neg hp] at h
    have := List.append_cancel_left h
    exact (List.cons.inj this).2

theorem pageId_prefix (path page name : Text) : path ++ (pageId path page ++ '/' :: name).drop path.length = pageId path page ++ '/' :: name := by
  rw [pageId]
  by_cases hp : path = []
  · rw [if_pos hp, hp]
    rfl
  · rw [if_neg hp, List.append_assoc, List.drop_left]

theorem pageId_rest (path page name : Text) : '/' ∈ (pageId path page ++ '/' :: name).drop path.length := by
  rw [pageId]
  by_cases hp : path = []
  · rw [if_pos hp, hp]
    exact List.mem_append_right _ List.mem_cons_self
  · rw [if_neg hp, List.append_assoc, List.drop_left]
    exact List.mem_cons_self

theorem showInt_chars (n : Int) : '/' ∉ showInt n := by
  have hd : ∀ m, '/' ∉ showNat m := fun m h => absurd (showNat_digits m _ h) (by decide)
  cases n with
  | ofNat m => exact hd m
  | negSucc m =>
    intro h
    rcases List.mem_cons.mp h with h | h
    · cases h
    · exact hd _ h

theorem num_slash (t : Text) (h : '/' ∈ t) : num t = none := by
  rw [num]
  cases parseInt t with
  | none => rfl
  | some n =>
    simp only
    rw [if_neg]
    intro e
    exact showInt_chars n (by rw [e]; exact h)

/-! ### the page of an element -/

theorem pageIndex_some (path : Text) (names : List Text) (page : Text) (i : Nat) (h : pageIndex path names page = some i)
    (hne : ∀ t ∈ names, t ≠ []) : names[i]? = some page := by
  rw [pageIndex] at h
  have h1 := List.find?_some h
  have h2 := of_decide_eq_true h1
  rw [Option.map_eq_some_iff] at h2
  obtain ⟨n, hn, he⟩ := h2
  have hnn := hne n (List.mem_of_getElem? hn)
  rw [calcId_page path n hnn] at he
  by_cases hp : page = []
  · exfalso
    rw [hp, calcId] at he
    by_cases hpath : path = []
    · rw [hpath] at he
      exact pageId_ne [] n hnn he
    · rw [List.filter_cons_of_pos (by simpa using hpath), List.filter_cons_of_neg (by simp), List.filter_cons_of_neg (by simp)] at he
      have he : pageId path n = path := he
      rw [pageId, if_neg hpath] at he
      have := congrArg List.length he
      rw [List.length_append, List.length_cons] at this
      omega
  · rw [calcId_page path page hp] at he
    rw [hn, pageId_inj path n page he]

theorem pageName_no (names : List Text) (v : Val) (page : Text) (h : pageName names v = some page) (hp : page ≠ []) :
    ∃ t n j, v = .str t ∧ num t = some n ∧ (if 0 ≤ n then some n.toNat else if (-n).toNat ≤ names.length then some (names.length - (-n).toNat) else none) = some j ∧
      names[j]? = some page := by
  rw [pageName.eq_def] at h
  by_cases hc : truthy v = false ∨ names = []
  · rw [if_pos hc] at h
    exact absurd (Option.some.inj h).symm hp
  · rw [if_neg hc] at h
    cases v with
    | none => cases h
    | list _ => cases h
    | str t =>
      simp only at h
      cases hn : parseInt t with
      | none => rw [hn] at h; cases h
      | some n =>
        rw [hn] at h
        simp only at h
        by_cases hs : showInt n = t
        · rw [if_pos hs] at h
          have hnum : num t = some n := by rw [num, hn]; simp only; rw [if_pos hs]
          by_cases h0 : 0 ≤ n
          · rw [if_pos h0] at h
            exact ⟨t, n, n.toNat, rfl, hnum, by rw [if_pos h0], h⟩
          · rw [if_neg h0] at h
            by_cases h1 : (-n).toNat ≤ names.length
            · rw [if_pos h1] at h
              exact ⟨t, n, _, rfl, hnum, by rw [if_neg h0, if_pos h1], h⟩
            · rw [if_neg h1] at h; cases h
        · rw [if_neg hs] at h; cases h

theorem nodup_index {α β : Type} (l : List α) (f : α → β) (hn : (l.map f).Nodup) (i j : Nat) (x : α) (hi : l[i]? = some x) (hj : l[j]? = some x) :
    i = j := by
  rw [List.getElem?_eq_some_iff] at hi hj
  obtain ⟨hi1, hi2⟩ := hi
  obtain ⟨hj1, hj2⟩ := hj
  rw [List.Nodup, List.pairwise_iff_getElem] at hn
  rcases Nat.lt_trichotomy i j with h | h | h
  · exact absurd (by rw [List.getElem_map, List.getElem_map, hi2, hj2]) (hn i j (by rw [List.length_map]; exact hi1) (by rw [List.length_map]; exact hj1) h)
  · exact h
  · exact absurd (by rw [List.getElem_map, List.getElem_map, hi2, hj2]) (hn j i (by rw [List.length_map]; exact hj1) (by rw [List.length_map]; exact hi1) h)

/-- the number of the page of an element, read from its place, is where its node is in the tree -/
theorem head_page (path : Text) (names : List Text) (raw : List Val) (name page : Text) (idv : Val) (i : Nat) (a : List Val)
    (h : headOf names raw = some (name, page, idv)) (hi : pageIndex path names page = some i) (hne : ∀ t ∈ names, t ≠ [])
    (hn : (names.map (fun t => calcId path t [])).Nodup) (ha : placeOf raw = some a) :
    names[i]? = some page ∧ pageNo names.length raw = some i ∧ raw[1]? = some idv ∧ hashable idv = true := by
  have hpi := pageIndex_some path names page i hi hne
  have hpne := hne page (List.mem_of_getElem? hpi)
  rw [placeOf] at ha
  cases hf : fromEnd raw 3 with
  | none => rw [hf] at ha; cases ha
  | some v =>
    cases v with
    | none => rw [hf] at ha; cases ha
    | str _ => rw [hf] at ha; cases ha
    | list a' =>
      rw [hf] at ha
      cases ha
      rw [headOf, hf] at h
      cases h1 : (fromEnd raw 2).bind (nameAt · 1) with
      | none => rw [h1] at h; cases h
      | some nm =>
        cases h2 : fromEnd a 5 with
        | none =>
          have : ((some (Val.list a)).bind seq).bind (fun x => fromEnd x 5) = none := h2
          rw [h1, this] at h
          cases h
        | some pg =>
          have h2' : ((some (Val.list a)).bind seq).bind (fun x => fromEnd x 5) = some pg := h2
          cases h3 : raw[1]? with
          | none => rw [h1, h2', h3] at h; cases h
          | some id' =>
            rw [h1, h2', h3] at h
            simp only at h
            by_cases hh : hashable id' = false
            · rw [if_pos hh] at h; cases h
            · rw [if_neg hh, Option.map_eq_some_iff] at h
              obtain ⟨p, hp, he⟩ := h
              have e1 := (Prod.mk.inj he).2
              obtain ⟨e2, e3⟩ := Prod.mk.inj e1
              subst e2
              subst e3
              obtain ⟨t, n, j, rfl, hnum, hj, hjn⟩ := pageName_no names pg p hp hpne
              have hij := nodup_index names (fun t => calcId path t []) hn i j p hpi hjn
              refine ⟨hpi, ?_, rfl, by simpa using hh⟩
              rw [pageNo, placeOf, hf]
              show (match (some a).bind (fun x => fromEnd x 5) with | some (.str t) => _ | _ => _) = _
              rw [Option.bind_some, h2]
              simp only
              rw [hnum]
              simp only
              rw [hj, hij]

/-! ### loops -/

theorem each_map {α β δ : Type} (f : α → Option β) (g : δ → α) : ∀ l, each f (l.map g) = each (fun x => f (g x)) l
  | [] => rfl
  | x :: r => by rw [List.map_cons, each, each, each_map f g r]

theorem each_some {α β : Type} (f : α → Option β) (h : α → β) : ∀ (l : List α), (∀ x ∈ l, f x = some (h x)) → each f l = some (l.map h)
  | [], _ => rfl
  | x :: r, hx => by
    rw [each, hx x List.mem_cons_self, Option.bind_some, each_some f h r (fun y hy => hx y (List.mem_cons_of_mem _ hy))]
    rfl

theorem numbered_map {α β γ δ : Type} (f : Nat → α → Option (β × Nat × List γ)) (g : δ → α) : ∀ (last : Nat) (l : List δ),
    numbered f last (l.map g) = numbered (fun n x => f n (g x)) last l
  | last, [] => rfl
  | last, x :: r => by
    rw [List.map_cons, numbered, numbered]
    congr 1
    funext y
    rw [numbered_map f g y.2.1 r]

/-- two loops that agree step by step -/
theorem lockstep {α β β' γ : Type} (F : Nat → α → Option (β × Nat × List γ)) (G : Nat → α → Option (β' × Nat × List γ))
    (R : α → Nat → β → β' → Prop) : ∀ (l : List α) (last : Nat),
    (∀ a ∈ l, ∀ n, ∃ b b' m s, F n a = some (b, m, s) ∧ G n a = some (b', m, s) ∧ R a n b b') →
    ∃ (ts : List (α × Nat × β × β')) (L : Nat) (S : List γ), ts.map (·.1) = l ∧ (∀ t ∈ ts, R t.1 t.2.1 t.2.2.1 t.2.2.2) ∧
      numbered F last l = some (ts.map (·.2.2.1), L, S) ∧ numbered G last l = some (ts.map (·.2.2.2), L, S)
  | [], last, _ => ⟨[], last, [], rfl, (fun t h => absurd h List.not_mem_nil), rfl, rfl⟩
  | a :: r, last, h => by
    obtain ⟨b, b', m, s, h1, h2, h3⟩ := h a List.mem_cons_self last
    obtain ⟨ts, L, S, i1, i2, i3, i4⟩ := lockstep F G R r m (fun x hx => h x (List.mem_cons_of_mem _ hx))
    refine ⟨(a, last, b, b') :: ts, L, s ++ S, by rw [List.map_cons, i1], ?_, ?_, ?_⟩
    · intro t ht
      rcases List.mem_cons.mp ht with rfl | ht
      · exact h3
      · exact i2 t ht
    · rw [numbered, h1, Option.bind_some]
      simp only
      rw [i3]
      rfl
    · rw [numbered, h2, Option.bind_some]
      simp only
      rw [i4]
      rfl

end V8.OAuto
