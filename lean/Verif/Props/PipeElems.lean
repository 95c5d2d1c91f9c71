import Verif.Pipe
import Verif.FormJsonLemmas
/-
Two files with the same elements (as the organizer sees them) are built into the same form.
-/
namespace V8.Pipe
open V8.Str V8.Brace V8.Enc V8.JsonText V8.Object V8.FormJson
open V8.Store hiding Kind nodeOf
open V8.Form (dictGet)

theorem dump_inj {x y : JT} (hx : x.WF) (hy : y.WF) (h : dump 0 x = dump 0 y) : x = y := by
  have h1 := loads_dump x hx
  rw [h, loads_dump y hy] at h1
  exact (Option.some.inj h1).symm

theorem wfd_filter (f : Text × JT → Bool) : ∀ {d : List (Text × JT)}, WFd d → WFd (d.filter f)
  | [], h => h
  | (k, v) :: r, h => by
    rw [WFd] at h
    rw [List.filter_cons]
    by_cases hf : f (k, v) = true
    · rw [if_pos hf, WFd]
      exact ⟨h.1, wfd_filter f h.2⟩
    · rw [if_neg hf]
      exact wfd_filter f h.2

theorem filter_wf (f : Text × JT → Bool) {d : List (Text × JT)} (h : (JT.obj d).WF) : (JT.obj (d.filter f)).WF := by
  rw [JT.WF] at h ⊢
  exact ⟨h.1.filter f, wfd_filter f h.2⟩

/-- an entry that is kept -/
theorem dget_filter (f : Text × JT → Bool) (k : Text) (hf : ∀ v, f (k, v) = true) : ∀ d : List (Text × JT), dget (d.filter f) k = dget d k
  | [] => rfl
  | (k', v) :: r => by
    unfold dget
    have ih := dget_filter f k hf r
    unfold dget at ih
    by_cases hk : k' = k
    · subst hk
      rw [List.filter_cons, if_pos (hf v), List.find?_cons_of_pos (by simp), List.find?_cons_of_pos (by simp)]
    · rw [List.filter_cons]
      by_cases hp : f (k', v) = true
      · rw [if_pos hp, List.find?_cons_of_neg (by simp [hk]), List.find?_cons_of_neg (by simp [hk])]
        exact ih
      · rw [if_neg hp, List.find?_cons_of_neg (by simp [hk])]
        exact ih

theorem wfd_mem : ∀ {d : List (Text × JT)} {p : Text × JT}, WFd d → p ∈ d → p.2.WF
  | (_, _) :: _, _, h, hm => by
    rw [WFd] at h
    rcases List.mem_cons.mp hm with rfl | hm
    · exact h.1
    · exact wfd_mem h.2 hm

theorem dget_mem {d : List (Text × JT)} {k : Text} {v : JT} (h : dget d k = some v) : (k, v) ∈ d := by
  unfold dget at h
  rw [Option.map_eq_some_iff] at h
  obtain ⟨p, hp, rfl⟩ := h
  have := List.find?_some hp
  rw [decide_eq_true_eq] at this
  subst this
  exact List.mem_of_find?_eq_some hp

theorem mem_dget {d : List (Text × JT)} (hd : d.Pairwise (fun a b => a.1 ≠ b.1)) {k : Text} {v : JT} (h : (k, v) ∈ d) : dget d k = some v := by
  induction d with
  | nil => cases h
  | cons a r ih =>
    obtain ⟨k', v'⟩ := a
    unfold dget
    rw [List.pairwise_cons] at hd
    rcases List.mem_cons.mp h with h | h
    · cases h
      rw [List.find?_cons_of_pos (by simp)]
      rfl
    · have hne : k' ≠ k := hd.1 _ h
      rw [List.find?_cons_of_neg (by simp [hne])]
      exact ih hd.2 h

theorem kidsE_dget : ∀ d : List (Text × JT), kidsE d = match dget d childWord with
    | none => some none
    | some v => childE v
  | [] => by rw [kidsE]; rfl
  | (k, v) :: r => by
    rw [kidsE]
    unfold dget
    by_cases hk : k = childWord
    · rw [if_pos hk, List.find?_cons_of_pos (by simp [hk])]
      rfl
    · rw [if_neg hk, List.find?_cons_of_neg (by simp [hk])]
      exact kidsE_dget r

theorem kidsOf_dget : ∀ d : List (Text × JT), kidsOf d = match dget d childWord with
    | none => some []
    | some v => kidList v
  | [] => by rw [kidsOf]; rfl
  | (k, v) :: r => by
    rw [kidsOf, show "child".toList = childWord from rfl]
    unfold dget
    by_cases hk : k = childWord
    · rw [if_pos hk, List.find?_cons_of_pos (by simp [hk])]
      rfl
    · rw [if_neg hk, List.find?_cons_of_neg (by simp [hk])]
      exact kidsOf_dget r

theorem okidsOf_dget : ∀ d : List (Text × JT), okidsOf d = match dget d childWord with
    | none => some []
    | some v => okidList v
  | [] => by rw [okidsOf]; rfl
  | (k, v) :: r => by
    rw [okidsOf, show "child".toList = childWord from rfl]
    unfold dget
    by_cases hk : k = childWord
    · rw [if_pos hk, List.find?_cons_of_pos (by simp [hk])]
      rfl
    · rw [if_neg hk, List.find?_cons_of_neg (by simp [hk])]
      exact okidsOf_dget r

theorem akidsOf_dget : ∀ d : List (Text × JT), akidsOf d = match dget d childWord with
    | none => some []
    | some v => akidList v
  | [] => by rw [akidsOf]; rfl
  | (k, v) :: r => by
    rw [akidsOf, show "child".toList = childWord from rfl]
    unfold dget
    by_cases hk : k = childWord
    · rw [if_pos hk, List.find?_cons_of_pos (by simp [hk])]
      rfl
    · rw [if_neg hk, List.find?_cons_of_neg (by simp [hk])]
      exact akidsOf_dget r

/-- what the rest of an element says -/
theorem rest_eq {d d' : List (Text × JT)} (hw : (JT.obj d).WF) (hw' : (JT.obj d').WF) (h : dump 0 (.obj (restOf d)) = dump 0 (.obj (restOf d'))) :
    (∀ k, k ≠ childWord → dget d' k = dget d k) ∧ (dget d childWord = none → dget d' childWord = none ∨ ∃ l, dget d' childWord = some (.arr l)) ∧
      (dget d childWord = some .null → dget d' childWord = some .null) := by
  have he := dump_inj (filter_wf _ hw) (filter_wf _ hw') h
  injection he with he
  have he2 : restOf d = restOf d' := he
  have hkeep : ∀ k, k ≠ childWord → ∀ v, (!moved (k, v)) = true := by
    intro k hk v
    unfold moved
    simp [hk]
  refine ⟨?_, ?_, ?_⟩
  · intro k hk
    rw [← dget_filter (fun p => !moved p) k (hkeep k hk) d', ← dget_filter (fun p => !moved p) k (hkeep k hk) d]
    rw [he]
  · intro hn
    cases hc : dget d' childWord with
    | none => exact .inl rfl
    | some v =>
      right
      by_cases hv : moved (childWord, v) = true
      · cases v with
        | arr l => exact ⟨l, rfl⟩
        | _ => simp [moved] at hv
      · exfalso
        have hm : (childWord, v) ∈ restOf d' := List.mem_filter.mpr ⟨dget_mem hc, by rw [Bool.not_eq_true'] ; exact Bool.eq_false_iff.mpr hv⟩
        rw [← he2] at hm
        rw [JT.WF] at hw
        rw [mem_dget hw.1 (List.mem_filter.mp hm).1] at hn
        cases hn
  · intro hn
    have hm : (childWord, JT.null) ∈ restOf d := List.mem_filter.mpr ⟨dget_mem hn, rfl⟩
    rw [he2] at hm
    rw [JT.WF] at hw'
    exact mem_dget hw'.1 (List.mem_filter.mp hm).1

theorem textAt_congr {d d' : List (Text × JT)} {k : Text} (h : dget d' k = dget d k) : textAt (.obj d') k = textAt (.obj d) k := by
  simp only [textAt, h]

theorem wf_arr {d : List (Text × JT)} {k : Text} {l : List JT} (hw : (JT.obj d).WF) (h : dget d k = some (.arr l)) : WFs l := by
  rw [JT.WF] at hw
  have := wfd_mem hw.2 (dget_mem h)
  simpa only [JT.WF] using this

/-- an entry of the tree of a form is read with the name and the page it has -/
theorem entry_words {d : List (Text × JT)} {n : V8.Areas.Node} (h : nodeE (.obj d) = some n) :
    ∃ name page t c, n = .mk name page t c ∧ (∀ s, dget d "name".toList = some (.str s) → name = s) ∧ (∀ s, dget d "page".toList = some (.str s) → page = s) := by
  rw [nodeE, Option.map_eq_some_iff] at h
  obtain ⟨c, _, rfl⟩ := h
  exact ⟨_, _, _, _, rfl, fun s hs => by simp only [wordOf, hs], fun s hs => by simp only [wordOf, hs]⟩

mutual
/-- the same elements are read as the same tree, by managed and ordinary forms -/
theorem node_same : ∀ (j j' : JT) (n : V8.Areas.Node), j.WF → j'.WF → nodeE j = some n → nodeE j' = some n → 
    nodeOf j' = nodeOf j ∧ onodeOf j' = onodeOf j ∧ anodeOf j' = anodeOf j
  | .obj d, j', n, hw, hw', h, h' => by
    cases j' with
    | obj d' =>
      rw [nodeE, Option.map_eq_some_iff] at h h'
      obtain ⟨c, hc, rfl⟩ := h
      obtain ⟨c', hc', he⟩ := h'
      injection he with _ _ h3 h4
      subst h4
      obtain ⟨r1, r2, r3⟩ := rest_eq hw hw' h3.symm
      have hn := textAt_congr (r1 "name".toList (by decide))
      have ht := textAt_congr (r1 "type".toList (by decide))
      have hp : pageAt (.obj d') = pageAt (.obj d) := by
        have := r1 "page".toList (by decide)
        simp only [pageAt, entry, this]
      rw [kidsE_dget] at hc hc'
      have hk : kidsOf d' = kidsOf d ∧ okidsOf d' = okidsOf d ∧ akidsOf d' = akidsOf d := by
        rw [kidsOf_dget, kidsOf_dget d, okidsOf_dget, okidsOf_dget d, akidsOf_dget, akidsOf_dget d]
        cases hcd : dget d childWord with
        | none =>
          rcases r2 hcd with hcd' | ⟨l, hcd'⟩
          · rw [hcd']; exact ⟨rfl, rfl, rfl⟩
          · rw [hcd] at hc
            rw [hcd'] at hc'
            simp only at hc hc'
            cases hc
            rw [childE, Option.map_eq_some_iff] at hc'
            obtain ⟨_, _, h⟩ := hc'
            cases h
        | some v =>
          rw [hcd] at hc
          simp only at hc
          cases v with
          | null => rw [r3 hcd]; exact ⟨rfl, rfl, rfl⟩
          | arr l =>
            rw [childE, Option.map_eq_some_iff] at hc
            obtain ⟨ns, hns, rfl⟩ := hc
            cases hcd' : dget d' childWord with
            | none => rw [hcd'] at hc'; cases hc'
            | some v' =>
              rw [hcd'] at hc'
              simp only at hc'
              cases v' with
              | arr l' =>
                rw [childE, Option.map_eq_some_iff] at hc'
                obtain ⟨ns', hns', he⟩ := hc'
                cases he
                have hlt : sizeOf l < sizeOf (JT.obj d) := by
                  have h1 := List.sizeOf_lt_of_mem (dget_mem hcd)
                  simp at h1 ⊢
                  omega
                have := nodes_same l l' ns (wf_arr hw hcd) (wf_arr hw' hcd') hns hns'
                simp only [kidList, okidList, akidList, this.1, this.2.1, this.2.2, and_self]
              | null => rw [childE] at hc'; cases hc'
              | _ => simp only [childE] at hc'; cases hc'
          | _ => simp only [childE] at hc; cases hc
      refine ⟨?_, ?_, ?_⟩
      · rw [nodeOf, nodeOf, hn, ht, hk.1]
      · rw [onodeOf, onodeOf, hn, ht, hp, hk.2.1]
      · rw [anodeOf, anodeOf, hn, ht, hk.2.2]
    | _ => simp only [nodeE] at h'; cases h'
  | .null, _, _, _, _, h, _ => by simp only [nodeE] at h; cases h
  | .bool _, _, _, _, _, h, _ => by simp only [nodeE] at h; cases h
  | .int _, _, _, _, _, h, _ => by simp only [nodeE] at h; cases h
  | .float _, _, _, _, _, h, _ => by simp only [nodeE] at h; cases h
  | .str _, _, _, _, _, h, _ => by simp only [nodeE] at h; cases h
  | .arr _, _, _, _, _, h, _ => by simp only [nodeE] at h; cases h
termination_by j => sizeOf j
decreasing_by all_goals first | assumption | decreasing_tactic
theorem nodes_same : ∀ (l l' : List JT) (ns : List V8.Areas.Node), WFs l → WFs l' → nodesE l = some ns → nodesE l' = some ns →
    nodesOf l' = nodesOf l ∧ onodesOf l' = onodesOf l ∧ anodesOf l' = anodesOf l
  | [], l', ns, hw, hw', h, h' => by
    rw [nodesE] at h
    cases h
    cases l' with
    | nil => exact ⟨rfl, rfl, rfl⟩
    | cons a r =>
      rw [nodesE] at h'
      simp only [Option.bind_eq_some_iff, Option.map_eq_some_iff] at h'
      obtain ⟨_, _, _, _, h⟩ := h'
      cases h
  | j :: r, l', ns, hw, hw', h, h' => by
    rw [nodesE] at h
    simp only [Option.bind_eq_some_iff, Option.map_eq_some_iff] at h
    obtain ⟨n, hn, ms, hms, rfl⟩ := h
    cases l' with
    | nil => rw [nodesE] at h'; cases h'
    | cons a r' =>
      rw [nodesE] at h'
      simp only [Option.bind_eq_some_iff, Option.map_eq_some_iff] at h'
      obtain ⟨n', hn', ms', hms', h⟩ := h'
      cases h
      rw [WFs] at hw hw'
      have h1 := node_same j a n hw.1 hw'.1 hn hn'
      have h2 := nodes_same r r' ms hw.2 hw'.2 hms hms'
      rw [nodesOf, nodesOf, onodesOf, onodesOf, anodesOf, anodesOf, h1.1, h1.2.1, h1.2.2, h2.1, h2.2.1, h2.2.2]
      exact ⟨rfl, rfl, rfl⟩
termination_by l => sizeOf l
decreasing_by all_goals first | assumption | decreasing_tactic
end

/-! ### the data -/

theorem perm_of_dget {m m' : List (Text × JT)} (h : m.Pairwise (fun a b => a.1 ≠ b.1)) (h' : m'.Pairwise (fun a b => a.1 ≠ b.1)) (he : dget m = dget m') :
    m'.Perm m := by
  refine (List.perm_ext_iff_of_nodup (h'.imp (fun {a b} hab hc => hab (by rw [hc]))) (h.imp (fun {a b} hab hc => hab (by rw [hc])))).mpr ?_
  rintro ⟨k, v⟩
  constructor
  · intro hm
    have := mem_dget h' hm
    rw [← he] at this
    exact dget_mem this
  · intro hm
    have := mem_dget h hm
    rw [he] at this
    exact dget_mem this

theorem allOf_perm {α β : Type} (f : α → Option β) {l l' : List α} (h : l'.Perm l) : ∀ {r}, allOf f l = some r → ∃ r', allOf f l' = some r' ∧ r'.Perm r := by
  induction h with
  | nil => intro r h; exact ⟨r, h, .refl _⟩
  | cons a _ ih =>
    intro r h
    rw [allOf] at h
    simp only [Option.bind_eq_some_iff, Option.map_eq_some_iff] at h
    obtain ⟨b, hb, t, ht, rfl⟩ := h
    obtain ⟨t', h1, h2⟩ := ih ht
    exact ⟨b :: t', by rw [allOf, hb, h1]; rfl, h2.cons b⟩
  | swap a b l =>
    intro r h
    rw [allOf, allOf] at h
    simp only [Option.bind_eq_some_iff, Option.map_eq_some_iff] at h
    obtain ⟨x, hx, t, ⟨y, hy, u, hu, rfl⟩, rfl⟩ := h
    exact ⟨y :: x :: u, by rw [allOf, allOf, hx, hy, hu]; rfl, .swap _ _ _⟩
  | trans _ _ ih1 ih2 =>
    intro r h
    obtain ⟨r1, h1, h2⟩ := ih2 h
    obtain ⟨r2, h3, h4⟩ := ih1 h1
    exact ⟨r2, h3, h4.trans h2⟩

theorem allOf_keys {α : Type} (f : JT → Option α) : ∀ {m : List (Text × JT)} {l : List (Text × α)}, allOf (pairOf f) m = some l → l.map (·.1) = m.map (·.1)
  | [], l, h => by rw [allOf] at h; cases h; rfl
  | (k, v) :: r, l, h => by
    rw [allOf] at h
    simp only [Option.bind_eq_some_iff, Option.map_eq_some_iff, pairOf] at h
    obtain ⟨b, ⟨w, _, rfl⟩, t, ht, rfl⟩ := h
    rw [List.map_cons, List.map_cons, allOf_keys f ht]

theorem pair_keys {β : Type} {l : List (Text × β)} (h : l.Pairwise (fun a b => a.1 ≠ b.1)) {p q : Text × β} (hp : p ∈ l) (hq : q ∈ l) (hne : p ≠ q) : p.1 ≠ q.1 := by
  induction l with
  | nil => cases hp
  | cons a r ih =>
    rw [List.pairwise_cons] at h
    rcases List.mem_cons.mp hp with e | hp'
    · rcases List.mem_cons.mp hq with e' | hq'
      · exact absurd (e.trans e'.symm) hne
      · rw [e]; exact h.1 _ hq'
    · rcases List.mem_cons.mp hq with e' | hq'
      · rw [e']; exact fun he => h.1 _ hp' he.symm
      · exact ih h.2 hp' hq'

theorem dictGet_perm {β : Type} {l l' : List (Text × β)} (h : l'.Perm l) (hn : (l.map (·.1)).Nodup) : dictGet l' = dictGet l := by
  have key : ∀ {l : List (Text × β)}, (l.map (·.1)).Nodup → ∀ k v, dictGet l k = some v ↔ (k, v) ∈ l := by
    intro l hn k v
    unfold dictGet
    rw [Option.map_eq_some_iff]
    constructor
    · rintro ⟨p, hp, rfl⟩
      have := List.find?_some hp
      rw [decide_eq_true_eq] at this
      subst this
      exact List.mem_reverse.mp (List.mem_of_find?_eq_some hp)
    · intro hm
      cases hf : l.reverse.find? (fun e => decide (e.1 = k)) with
      | none =>
        have := List.find?_eq_none.mp hf _ (List.mem_reverse.mpr hm)
        simp at this
      | some p =>
        have hk := List.find?_some hf
        rw [decide_eq_true_eq] at hk
        have hp := List.mem_reverse.mp (List.mem_of_find?_eq_some hf)
        refine ⟨p, rfl, ?_⟩
        have hinj : p = (k, v) := by
          rw [List.Nodup, List.pairwise_map] at hn
          by_cases hne : p = (k, v)
          · exact hne
          · exfalso
            exact pair_keys hn hp hm hne hk
        rw [hinj]
  funext k
  have hn' : (l'.map (·.1)).Nodup := (h.map _).nodup_iff.mpr hn
  cases hg : dictGet l k with
  | some v => exact (key hn' k v).mpr (h.mem_iff.mpr ((key hn k v).mp hg))
  | none =>
    cases hg' : dictGet l' k with
    | none => rfl
    | some v =>
      have := (key hn k v).mpr (h.mem_iff.mp ((key hn' k v).mp hg'))
      rw [hg] at this
      cases this

/-- the data of two files with the same elements -/
theorem dict_same {α : Type} (f : JT → Option α) {m m' : List (Text × JT)} (hw : (JT.obj m).WF) (hw' : (JT.obj m').WF) (he : dget m = dget m') :
    (allOf (pairOf f) m = none ∧ allOf (pairOf f) m' = none) ∨
      ∃ l l', allOf (pairOf f) m = some l ∧ allOf (pairOf f) m' = some l' ∧ dictGet l' = dictGet l := by
  rw [JT.WF] at hw hw'
  have hp := perm_of_dget hw.1 hw'.1 he
  cases h : allOf (pairOf f) m with
  | none =>
    left
    refine ⟨rfl, ?_⟩
    cases h' : allOf (pairOf f) m' with
    | none => rfl
    | some l' =>
      obtain ⟨r, h1, _⟩ := allOf_perm _ hp.symm h'
      rw [h] at h1
      cases h1
  | some l =>
    right
    obtain ⟨l', h1, h2⟩ := allOf_perm _ hp h
    refine ⟨l, l', rfl, h1, dictGet_perm h2 ?_⟩
    rw [allOf_keys f h, List.Nodup, List.pairwise_map]
    exact hw.1

/-- what two files with the same elements have in common -/
theorem elems_same {j j' : JT} {e : V8.Areas.Elems JT} (hw : j.WF) (hw' : j'.WF) (h : elemsOf j = some e) (h' : elemsOf j' = some e) :
    (∀ k, k ≠ treeWord → k ≠ dataWord → entry j' k = entry j k) ∧ treeOf nodesOf j' = treeOf nodesOf j ∧ treeOf onodesOf j' = treeOf onodesOf j ∧
      treeOf anodesOf j' = treeOf anodesOf j ∧
      ∀ {α : Type} (f : JT → Option α), (dictAt f j dataWord = none ∧ dictAt f j' dataWord = none) ∨
        ∃ l l', dictAt f j dataWord = some l ∧ dictAt f j' dataWord = some l' ∧ dictGet l' = dictGet l := by
  cases j with
  | obj d =>
    cases j' with
    | obj d' =>
      rw [elemsOf] at h h'
      simp only [Option.bind_eq_some_iff, Option.map_eq_some_iff] at h h'
      obtain ⟨t, ht, m, hm, rfl⟩ := h
      obtain ⟨t', ht', m', hm', he⟩ := h'
      injection he with e1 e2 e3
      subst e1
      have hb := dump_inj (filter_wf _ hw') (filter_wf _ hw) e3
      injection hb with hb
      have htr : ∃ l l', dget d treeWord = some (.arr l) ∧ dget d' treeWord = some (.arr l') ∧ nodesE l = some t' ∧ nodesE l' = some t' := by
        unfold treeE at ht ht'
        cases hd : dget d treeWord with
        | none => rw [hd] at ht; cases ht
        | some v =>
          cases hd' : dget d' treeWord with
          | none => rw [hd'] at ht'; cases ht'
          | some v' =>
            rw [hd] at ht
            rw [hd'] at ht'
            cases v with
            | arr l =>
              cases v' with
              | arr l' => exact ⟨l, l', rfl, rfl, ht, ht'⟩
              | _ => cases ht'
            | _ => cases ht
      obtain ⟨l, l', g1, g2, g3, g4⟩ := htr
      have hns := nodes_same l l' t' (wf_arr hw g1) (wf_arr hw' g2) g3 g4
      have hdt : dget d dataWord = some (.obj m) ∧ dget d' dataWord = some (.obj m') := by
        unfold dataE at hm hm'
        constructor
        · cases hd : dget d dataWord with
          | none => rw [hd] at hm; cases hm
          | some v =>
            rw [hd] at hm
            cases v with
            | obj m => cases hm; rfl
            | _ => cases hm
        · cases hd : dget d' dataWord with
          | none => rw [hd] at hm'; cases hm'
          | some v =>
            rw [hd] at hm'
            cases v with
            | obj m => cases hm'; rfl
            | _ => cases hm'
      refine ⟨?_, ?_, ?_, ?_, ?_⟩
      · intro k h1 h2
        show dget d' k = dget d k
        have hkeep : ∀ v : JT, (!decide ((k, v).1 = treeWord) && !decide ((k, v).1 = dataWord)) = true := by
          intro v
          simp [h1, h2]
        rw [← dget_filter (fun p => !decide (p.1 = treeWord) && !decide (p.1 = dataWord)) k hkeep d', ← dget_filter (fun p => !decide (p.1 = treeWord) && !decide (p.1 = dataWord)) k hkeep d, hb]
      · have a1 : entry (.obj d) "tree".toList = some (.arr l) := g1
        have a2 : entry (.obj d') "tree".toList = some (.arr l') := g2
        simp only [treeOf, a1, a2, hns.1]
      · have a1 : entry (.obj d) "tree".toList = some (.arr l) := g1
        have a2 : entry (.obj d') "tree".toList = some (.arr l') := g2
        simp only [treeOf, a1, a2, hns.2.1]
      · have a1 : entry (.obj d) "tree".toList = some (.arr l) := g1
        have a2 : entry (.obj d') "tree".toList = some (.arr l') := g2
        simp only [treeOf, a1, a2, hns.2.2]
      · intro α f
        have a1 : entry (.obj d) dataWord = some (.obj m) := hdt.1
        have a2 : entry (.obj d') dataWord = some (.obj m') := hdt.2
        simp only [dictAt, a1, a2]
        have w1 : (JT.obj m).WF := by
          rw [JT.WF] at hw
          exact wfd_mem hw.2 (dget_mem hdt.1)
        have w2 : (JT.obj m').WF := by
          rw [JT.WF] at hw'
          exact wfd_mem hw'.2 (dget_mem hdt.2)
        exact dict_same f w1 w2 e2.symm
    | _ => simp only [elemsOf] at h'; cases h'
  | _ => simp only [elemsOf] at h; cases h

/-! ### forms -/

theorem encodeElem_congr (P : List (Text × V8.Form.PropId)) (C : List (Text × Val)) {D D' : List (Text × V8.Form.Data)} (h : dictGet D' = dictGet D) :
    ∀ depth, V8.Form.encodeElem P C D' depth = V8.Form.encodeElem P C D depth
  | 0 => by funext p n; rw [V8.Form.encodeElem, V8.Form.encodeElem]
  | depth + 1 => by
    funext p n
    cases n with
    | mk name k child => rw [V8.Form.encodeElem, V8.Form.encodeElem, h, encodeElem_congr P C h depth]

theorem encodeForm_congr (depth : Nat) (con : Option Text) (raw : List Val) (s s' : V8.Form.Src) (h1 : s'.props = s.props) (h2 : s'.commands = s.commands)
    (h3 : s'.params = s.params) (h4 : s'.tree = s.tree) (h5 : dictGet s'.data = dictGet s.data) :
    V8.Form.encodeForm depth con raw s' = V8.Form.encodeForm depth con raw s := by
  obtain ⟨a, b, c, t, d⟩ := s
  obtain ⟨a', b', c', t', d'⟩ := s'
  simp only at h1 h2 h3 h4 h5
  subst h1
  subst h2
  subst h3
  subst h4
  have key : ∀ P C raw, V8.Form.encodeElements P C depth ⟨a', b', c', t', d'⟩ raw = V8.Form.encodeElements P C depth ⟨a', b', c', t', d⟩ raw := by
    intro P C raw
    unfold V8.Form.encodeElements
    rw [encodeElem_congr P C h5]
  unfold V8.Form.encodeForm
  simp only [key]

theorem pagesIn1_congr {D D' : List (Text × V8.OForm.Entry)} (h : dictGet D' = dictGet D) (path : Text) : ∀ l, V8.OForm.pagesIn1 D' path l = V8.OForm.pagesIn1 D path l
  | [] => by rw [V8.OForm.pagesIn1, V8.OForm.pagesIn1]
  | n :: r => by rw [V8.OForm.pagesIn1, V8.OForm.pagesIn1, h, pagesIn1_congr h path r]

theorem pagesIn_congr {D D' : List (Text × V8.OForm.Entry)} (h : dictGet D' = dictGet D) : V8.OForm.pagesIn D' = V8.OForm.pagesIn D := by
  funext path raw
  unfold V8.OForm.pagesIn
  simp only [h, pagesIn1_congr h]

theorem elemIn_congr (N : List (Text × Val)) {D D' : List (Text × V8.OForm.Entry)} (h : dictGet D' = dictGet D) :
    ∀ depth, V8.OForm.elemIn N D' depth = V8.OForm.elemIn N D depth
  | 0 => by funext p n; rw [V8.OForm.elemIn, V8.OForm.elemIn]
  | depth + 1 => by
    funext p n
    cases n with
    | mk name l page child => rw [V8.OForm.elemIn, V8.OForm.elemIn, h, pagesIn_congr h, elemIn_congr N h depth]

theorem mainIn_congr (N : List (Text × Val)) {D D' : List (Text × V8.OForm.Entry)} (h : dictGet D' = dictGet D) (depth : Nat) :
    V8.OForm.mainIn N D' depth = V8.OForm.mainIn N D depth := by
  funext t p
  unfold V8.OForm.mainIn
  rw [pagesIn_congr h, elemIn_congr N h]

theorem formIn_congr (depth : Nat) (raw : List Val) (s s' : V8.OForm.Src) (h1 : s'.attrs = s.attrs) (h2 : s'.tree = s.tree) (h3 : dictGet s'.data = dictGet s.data) :
    V8.OForm.formIn depth raw s' = V8.OForm.formIn depth raw s := by
  unfold V8.OForm.formIn
  simp only [h1, h2, mainIn_congr _ h3]

theorem apanelIn_congr {D D' : List (Text × V8.OForm.Entry)} (h : dictGet D' = dictGet D) : V8.OAuto.panelIn D' = V8.OAuto.panelIn D := by
  funext f path tree last pr er
  unfold V8.OAuto.panelIn V8.OAuto.pagesWith
  simp only [pagesIn1_congr h]

theorem aelemIn_congr (N : List (Text × Val)) {D D' : List (Text × V8.OForm.Entry)} (h : dictGet D' = dictGet D) :
    ∀ depth, V8.OAuto.elemIn N D' depth = V8.OAuto.elemIn N D depth
  | 0 => by funext p l n; rw [V8.OAuto.elemIn, V8.OAuto.elemIn]
  | depth + 1 => by
    funext p l n
    cases n with
    | mk name lb page child => rw [V8.OAuto.elemIn, V8.OAuto.elemIn, h, apanelIn_congr h, aelemIn_congr N h depth]

theorem aformIn_congr (depth : Nat) (raw : List Val) (s s' : V8.OForm.Src) (h1 : s'.attrs = s.attrs) (h2 : s'.tree = s.tree) (h3 : dictGet s'.data = dictGet s.data) :
    V8.OAuto.formIn depth raw s' = V8.OAuto.formIn depth raw s := by
  unfold V8.OAuto.formIn
  simp only [h1, h2, apanelIn_congr h3, aelemIn_congr _ h3]

/-- the bytes hold the same elements -/
def SameElems (b b' : Bytes) : Prop := ∃ j j' e, readFile b = some j ∧ j.WF ∧ readFile b' = some j' ∧ j'.WF ∧ elemsOf j = some e ∧ elemsOf j' = some e

/-- two files with the same elements are built into the same form -/
theorem elemsIn_same (g : V8.FormObj.Lim) (auto : Bool) (con : Option Text) (ty : Text) {b b' : Bytes} (h : SameElems b b') (form : List V8.FormObj.File) :
    V8.FormObj.elemsIn g auto con ty (some b') form = V8.FormObj.elemsIn g auto con ty (some b) form := by
  obtain ⟨j, j', e, r1, w1, r2, w2, e1, e2⟩ := h
  obtain ⟨s1, s2, s3, s5, s4⟩ := elems_same w1 w2 e1 e2
  have hprm := s1 "params".toList (by decide) (by decide)
  have hprp := s1 "props".toList (by decide) (by decide)
  have hcmd := s1 "commands".toList (by decide) (by decide)
  have hm : ∀ raw, (managedOf j').bind (fun s => V8.Form.encodeForm g.depth con raw s) = (managedOf j).bind (fun s => V8.Form.encodeForm g.depth con raw s) := by
    intro raw
    simp only [managedOf, listAt, hprm, hprp, hcmd, s2]
    cases (entry j "params".toList).bind (FormJson.listOf paramOf) with
    | none => rfl
    | some ps =>
      cases (entry j "props".toList).bind (FormJson.listOf propOf) with
      | none => rfl
      | some qs =>
        cases (entry j "commands".toList).bind (FormJson.listOf recOf) with
        | none => rfl
        | some cs =>
          cases treeOf nodesOf j with
          | none => rfl
          | some t =>
            rcases s4 dataOf with ⟨h1, h2⟩ | ⟨l, l', h1, h2, h3⟩
            · have h1' : dictAt dataOf j "data".toList = none := h1
              have h2' : dictAt dataOf j' "data".toList = none := h2
              simp only [h1', h2']
            · have h1' : dictAt dataOf j "data".toList = some l := h1
              have h2' : dictAt dataOf j' "data".toList = some l' := h2
              simp only [Option.bind_some, h1', h2', Option.map_some]
              exact encodeForm_congr _ _ _ _ _ rfl rfl rfl rfl h3
  have ho : ∀ raw, (ordinaryOf j').bind (fun s => V8.OForm.formIn g.depth raw s) = (ordinaryOf j).bind (fun s => V8.OForm.formIn g.depth raw s) := by
    intro raw
    simp only [ordinaryOf, listAt, hprp, s3]
    cases (entry j "props".toList).bind (FormJson.listOf recOf) with
    | none => rfl
    | some qs =>
      cases treeOf onodesOf j with
      | none => rfl
      | some t =>
        rcases s4 entryOf with ⟨h1, h2⟩ | ⟨l, l', h1, h2, h3⟩
        · have h1' : dictAt entryOf j "data".toList = none := h1
          have h2' : dictAt entryOf j' "data".toList = none := h2
          simp only [h1', h2']
        · have h1' : dictAt entryOf j "data".toList = some l := h1
          have h2' : dictAt entryOf j' "data".toList = some l' := h2
          simp only [Option.bind_some, h1', h2', Option.map_some]
          exact formIn_congr _ _ _ _ rfl rfl h3
  have ha : ∀ raw, (autoOf j').bind (fun s => V8.OAuto.formIn g.depth raw s) = (autoOf j).bind (fun s => V8.OAuto.formIn g.depth raw s) := by
    intro raw
    simp only [autoOf, listAt, hprp, s5]
    cases (entry j "props".toList).bind (FormJson.listOf recOf) with
    | none => rfl
    | some qs =>
      cases treeOf anodesOf j with
      | none => rfl
      | some t =>
        rcases s4 entryOf with ⟨h1, h2⟩ | ⟨l, l', h1, h2, h3⟩
        · have h1' : dictAt entryOf j "data".toList = none := h1
          have h2' : dictAt entryOf j' "data".toList = none := h2
          simp only [h1', h2']
        · have h1' : dictAt entryOf j "data".toList = some l := h1
          have h2' : dictAt entryOf j' "data".toList = some l' := h2
          simp only [Option.bind_some, h1', h2', Option.map_some]
          exact aformIn_congr _ _ _ _ rfl rfl h3
  have hm' : ∀ {β : Type} (raw : List Val) (f : List Val → β), (managedOf j').bind (fun s => (V8.Form.encodeForm g.depth con raw s).map f) = (managedOf j).bind (fun s => (V8.Form.encodeForm g.depth con raw s).map f) := by
    intro β raw f
    have := congrArg (Option.map f) (hm raw)
    simpa only [Option.map_bind, Function.comp_def] using this
  have ho' : ∀ {β : Type} (raw : List Val) (f : List Val → β), (ordinaryOf j').bind (fun s => (V8.OForm.formIn g.depth raw s).map f) = (ordinaryOf j).bind (fun s => (V8.OForm.formIn g.depth raw s).map f) := by
    intro β raw f
    have := congrArg (Option.map f) (ho raw)
    simpa only [Option.map_bind, Function.comp_def] using this
  have ha' : ∀ {β : Type} (raw : List Val) (f : List Val → β), (autoOf j').bind (fun s => (V8.OAuto.formIn g.depth raw s).map f) = (autoOf j).bind (fun s => (V8.OAuto.formIn g.depth raw s).map f) := by
    intro β raw f
    have := congrArg (Option.map f) (ha raw)
    simpa only [Option.map_bind, Function.comp_def] using this
  unfold V8.FormObj.elemsIn
  split
  · simp only [Option.bind_some, r1, r2, hm', ho', ha']
  · rfl

end V8.Pipe
