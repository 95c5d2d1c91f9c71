import Verif.OFormFixForm
import Mathlib.Data.List.Perm.Basic
/-
A form numbered anew is taken apart like the form before: lemmas about pages, loops and names.
-/
namespace V8.OAuto
open V8.Brace V8.Dec
open V8.Form (count countAt dictGet marker nonEmpty calcOffset truthy Rec countAt_congr countAt_some idx nameAt dictGet_mem dictGet_some hashable seq)
open V8.OForm hiding formOut formIn elemOut elemIn elemsOut elemsIn elemsLoop elem_rt form_rt

/-! ### pages -/

/-- the pages of a panel do not depend on the lists before them -/
theorem pages_again (path : Text) (pr pr1 : List Val) (names : List Text) (es : List (Text × Entry))
    (h : pagesOut path pr = some (pr1, names, es)) (ht : TidyPages pr) (R : List Val) (hR : skipLists 4 (pr.drop 2) = some R) (hs : List (Nat × Val)) :
    ∃ p z, pagesOut path (pr.take 2 ++ (anchorLists hs ++ R)) = some (p, names, es) ∧ delAnchored p = some z ∧
      TidyPages (pr.take 2 ++ (anchorLists hs ++ R)) := by
  obtain ⟨A, rfl, hA2, htk⟩ := skip_split pr R hR
  obtain ⟨hZ, _, _⟩ := panelData_new (A ++ R) R hR hs
  rw [htk] at hZ ⊢
  have ho := offset_split A R hR (by omega)
  generalize hZe : A.take 2 ++ anchorLists hs = Z
  have hassoc : A.take 2 ++ (anchorLists hs ++ R) = Z ++ R := by rw [← hZe, List.append_assoc]
  rw [hassoc] at hZ ⊢
  have hZl : 2 ≤ Z.length := by rw [← hZe, List.length_append, List.length_take]; omega
  have hoZ := offset_split Z R hZ (by omega)
  rw [pagesOut_at, ho] at h
  cases hc : calcOffset R restTable 0 with
  | none => rw [hc] at h; cases h
  | some o =>
    rw [hc] at h ho hoZ
    simp only [Option.map_some, Option.bind_some] at h ho hoZ
    have htA : TidyAt (A ++ R) (A.length + o) := fun pr n m h1 h2 h3 => ht _ pr n m ho h1 h2 h3
    have htR := (tidyAt_shift A R o).mp htA
    rw [pagesAt_shift path A R o htR, Option.map_eq_some_iff] at h
    obtain ⟨⟨R1, nm, es1⟩, hp, he⟩ := h
    simp only [Prod.mk.injEq] at he
    obtain ⟨he1, rfl, rfl⟩ := he
    have hne : R ≠ [] := by
      intro e
      rw [e, pagesAt] at hp
      cases hp
    refine ⟨Z ++ R1, zeros (Z ++ R1) ++ R1, ?_, ?_, ?_⟩
    · rw [pagesOut_at, hoZ, Option.bind_some, pagesAt_shift path Z R o htR, hp]
      rfl
    · rw [List.drop_append_of_le_length hZl] at hZ
      have := skip_other R R1 hne 4 _ hZ
      rw [delAnchored_eq, List.drop_append_of_le_length hZl, this]
      rfl
    · intro off pr n m h1 h2 h3 h4
      rw [hoZ] at h1
      cases h1
      exact (tidyAt_shift Z R o).mpr htR pr n m h2 h3 h4

/-! ### loops -/

theorem elemsLoop_kinds (f : Bool → List Val → Option Item) : ∀ (n : Nat) (l : List Val) (its : List Item), elemsLoop f n l = some its →
    ∃ ps : List (List Val × Item), l.take n = ps.map (fun p => .list p.1) ∧ its = ps.map (·.2) ∧ ps.length = n ∧
      ∀ p ∈ ps, ∃ u k, p.1[0]? = some (.str u) ∧ isPanel u = some k ∧ f k p.1 = some p.2
  | 0, l, its, h => by
    rw [elemsLoop] at h
    cases h
    exact ⟨[], by rw [List.take_zero]; rfl, rfl, rfl, fun p hp => absurd hp List.not_mem_nil⟩
  | n + 1, .list (.str u :: raw) :: rest, its, h => by
    rw [elemsLoop] at h
    simp only [Option.bind_eq_some_iff, Option.map_eq_some_iff] at h
    obtain ⟨k, hk, it, hit, its2, hl, rfl⟩ := h
    obtain ⟨ps, h1, h2, h4, h3⟩ := elemsLoop_kinds f n rest its2 hl
    refine ⟨(.str u :: raw, it) :: ps, by rw [List.take_succ_cons, h1]; rfl, by rw [h2]; rfl, by rw [List.length_cons, h4], ?_⟩
    intro p hp
    rcases List.mem_cons.mp hp with hp | hp
    · subst hp
      exact ⟨u, k, rfl, hk, hit⟩
    · exact h3 p hp
  | n + 1, [], its, h => by cases h
  | n + 1, .none :: _, its, h => by cases h
  | n + 1, .str _ :: _, its, h => by cases h
  | n + 1, .list [] :: _, its, h => by cases h
  | n + 1, .list (.none :: _) :: _, its, h => by cases h
  | n + 1, .list (.list _ :: _) :: _, its, h => by cases h

theorem elemsLoop_of (f : Bool → List Val → Option Item) : ∀ (ps : List (List Val × Item)),
    (∀ p ∈ ps, ∃ u k, p.1[0]? = some (.str u) ∧ isPanel u = some k ∧ f k p.1 = some p.2) →
    elemsLoop f ps.length (ps.map (fun p => .list p.1)) = some (ps.map (·.2))
  | [], _ => rfl
  | p :: r, h => by
    obtain ⟨u, k, h0, hk, hf⟩ := h p List.mem_cons_self
    obtain ⟨tl, htl⟩ : ∃ tl, p.1 = .str u :: tl := by
      cases hp : p.1 with
      | nil => rw [hp] at h0; cases h0
      | cons a tl =>
        rw [hp] at h0
        have := Option.some.inj h0
        exact ⟨tl, by rw [← this]⟩
    rw [List.map_cons, List.length_cons, htl, elemsLoop, hk, Option.bind_some, ← htl, hf, Option.bind_some,
      elemsLoop_of f r (fun q hq => h q (List.mem_cons_of_mem _ hq))]
    rfl

/-- one step of the numbering -/
structure Tr where
  raw : List Val
  last : Nat
  old : Val
  x : List Val
  m : Nat
  s : List (Text × Text)

theorem numbered_trace (f : Nat → List Val → Option (List Val × Nat × List (Text × Text)))
    (hup : ∀ last raw x m s, f last raw = some (x, m, s) → last < m) : ∀ (l : List (List Val)) (last : Nat)
    (res : List (Val × Text × List Val)) (L : Nat) (S : List (Text × Text)), numbered (step f) last l = some (res, L, S) →
    ∃ ts : List Tr, l = ts.map (·.raw) ∧ res = ts.map (fun t => (t.old, showNat (t.last + 1), t.x)) ∧
      (∀ t ∈ ts, t.raw[1]? = some t.old ∧ f t.last t.raw = some (t.x, t.m, t.s)) ∧ last ≤ L ∧ (∀ t ∈ ts, last ≤ t.last) ∧
      ts.Pairwise (fun a b => a.last < b.last)
  | [], last, res, L, S, h => by
    cases h
    exact ⟨[], rfl, rfl, (fun t ht => absurd ht List.not_mem_nil), Nat.le_refl _, (fun t ht => absurd ht List.not_mem_nil), List.Pairwise.nil⟩
  | raw :: r, last, res, L, S, h => by
    rw [numbered] at h
    simp only [Option.bind_eq_some_iff, Option.map_eq_some_iff] at h
    obtain ⟨⟨e, m, s⟩, hstep, ⟨res', L', S'⟩, hrest, heq⟩ := h
    simp only [Prod.mk.injEq] at heq
    obtain ⟨rfl, rfl, rfl⟩ := heq
    rw [step] at hstep
    simp only [Option.bind_eq_some_iff, Option.map_eq_some_iff, Prod.mk.injEq] at hstep
    obtain ⟨old, hold, ⟨x, m', s'⟩, hx, rfl, rfl, rfl⟩ := hstep
    simp only at hrest
    have hlt := hup _ _ _ _ _ hx
    obtain ⟨ts, h1, h2, h3, h4, h5, h6⟩ := numbered_trace f hup r _ res' L' S' hrest
    refine ⟨⟨raw, last, old, x, m, s⟩ :: ts, by rw [h1]; rfl, by rw [h2]; rfl, ?_, by omega, ?_, ?_⟩
    · intro t ht
      rcases List.mem_cons.mp ht with rfl | ht
      · exact ⟨hold, hx⟩
      · exact h3 t ht
    · intro t ht
      rcases List.mem_cons.mp ht with rfl | ht
      · exact Nat.le_refl _
      · have := h5 t ht
        omega
    · refine List.Pairwise.cons (fun t ht => ?_) h6
      have := h5 t ht
      show last < t.last
      omega

theorem renum_up (A : Val → Option Text) : ∀ (d last : Nat) (raw x : List Val) (m : Nat) (s : List (Text × Text)),
    renumElem A d last raw = some (x, m, s) → last < m
  | 0, _, _, _, _, _, h => by cases h
  | d + 1, last, raw, x, m, s, h => by
    rw [renumElem, Option.bind_eq_some_iff] at h
    obtain ⟨old, _, h⟩ := h
    simp only at h
    by_cases hk : raw[0]? ≠ some (.str panelKind)
    · rw [if_pos hk] at h
      simp only [Option.some.injEq, Prod.mk.injEq] at h
      omega
    · rw [if_neg hk] at h
      simp only [Option.bind_eq_some_iff, Option.map_eq_some_iff, Prod.mk.injEq] at h
      obtain ⟨pr, _, er, _, ⟨pr2, er2, m', s'⟩, hp, _, rfl, _⟩ := h
      rw [renumPanel] at hp
      simp only [Option.bind_eq_some_iff, Option.map_eq_some_iff, Prod.mk.injEq] at hp
      obtain ⟨n, _, ⟨res, L, S⟩, hres, new, _, rest, _, _, _, rfl, _⟩ := hp
      obtain ⟨_, _, _, _, h4, _⟩ := numbered_trace (renumElem A d) (renum_up A d) _ _ res L S hres
      show last < L
      omega

theorem each_zip {α β : Type} (f : α → Option β) : ∀ (l : List α) (r : List β), each f l = some r →
    ∃ zs : List (α × β), zs.map (·.1) = l ∧ zs.map (·.2) = r ∧ ∀ z ∈ zs, f z.1 = some z.2
  | [], r, h => by
    cases h
    exact ⟨[], rfl, rfl, fun z hz => absurd hz List.not_mem_nil⟩
  | a :: l, r, h => by
    rw [each] at h
    simp only [Option.bind_eq_some_iff, Option.map_eq_some_iff] at h
    obtain ⟨b, hb, r', hr, rfl⟩ := h
    obtain ⟨zs, h1, h2, h3⟩ := each_zip f l r' hr
    refine ⟨(a, b) :: zs, by rw [← h1]; rfl, by rw [← h2]; rfl, ?_⟩
    intro z hz
    rcases List.mem_cons.mp hz with rfl | hz
    · exact hb
    · exact h3 z hz

/-- two lists with the same values, as one list of pairs -/
theorem zip_same {α β γ : Type} (f : α → γ) (g : β → γ) : ∀ (a : List α) (b : List β), a.map f = b.map g →
    ∃ qs : List (α × β), qs.map (·.1) = a ∧ qs.map (·.2) = b ∧ ∀ q ∈ qs, f q.1 = g q.2
  | [], [], _ => ⟨[], rfl, rfl, fun q hq => absurd hq List.not_mem_nil⟩
  | [], _ :: _, h => by cases h
  | _ :: _, [], h => by cases h
  | x :: a, y :: b, h => by
    rw [List.map_cons, List.map_cons, List.cons.injEq] at h
    obtain ⟨qs, h1, h2, h3⟩ := zip_same f g a b h.2
    refine ⟨(x, y) :: qs, by rw [← h1]; rfl, by rw [← h2]; rfl, ?_⟩
    intro q hq
    rcases List.mem_cons.mp hq with rfl | hq
    · exact h.1
    · exact h3 q hq

theorem choose_all {α β : Type} (R : α → β → Prop) : ∀ (l : List α), (∀ a ∈ l, ∃ b, R a b) → ∃ qs : List (α × β), qs.map (·.1) = l ∧ ∀ q ∈ qs, R q.1 q.2
  | [], _ => ⟨[], rfl, fun q hq => absurd hq List.not_mem_nil⟩
  | a :: r, h => by
    obtain ⟨b, hb⟩ := h a List.mem_cons_self
    obtain ⟨qs, h1, h2⟩ := choose_all R r (fun x hx => h x (List.mem_cons_of_mem _ hx))
    refine ⟨(a, b) :: qs, by rw [← h1]; rfl, ?_⟩
    intro q hq
    rcases List.mem_cons.mp hq with rfl | hq
    · exact hb
    · exact h2 q hq

/-! ### names for references -/

theorem nameAll_keys (index : List (Val × Text)) (path : Text) : ∀ (keys : List Text) (es es' : List (Text × Entry)),
    nameAll index path keys es = some es' → es'.map (·.1) = es.map (·.1)
  | [], es, es', h => by cases h; rfl
  | k :: r, es, es', h => by
    rw [nameAll, Option.bind_eq_some_iff] at h
    obtain ⟨e2, h2, h3⟩ := h
    rw [nameAll_keys index path r _ _ h3]
    rw [nameRefs] at h2
    cases hg : dictGet es k with
    | none => rw [hg] at h2; cases h2
    | some v =>
      rw [hg] at h2
      cases v with
      | elem raw prop =>
        simp only [Option.bind_eq_some_iff, Option.map_eq_some_iff] at h2
        obtain ⟨_, _, _, _, rfl⟩ := h2
        exact dictSet_keys es k _
      | page _ _ => cases h2; rfl
      | pages _ => cases h2; rfl

theorem nameAll_ok (index : List (Val × Text)) (path : Text) : ∀ (keys : List Text) (es : List (Text × Entry)), keys.Nodup →
    (∀ k ∈ keys, ∃ raw prop a a1, dictGet es k = some (.elem raw prop) ∧ placeOf raw = some a ∧
      mapRefs (toName index path (fun _ => k.drop path.length)) (toName index path id) a = some a1) → ∃ es', nameAll index path keys es = some es'
  | [], es, _, _ => ⟨es, rfl⟩
  | k :: r, es, hn, h => by
    obtain ⟨raw, prop, a, a1, h1, h2, h3⟩ := h k List.mem_cons_self
    obtain ⟨es', he⟩ := nameAll_ok index path r (dictSet es k (.elem (setPlace raw a1) prop)) (List.nodup_cons.mp hn).2 (by
      intro k' hk'
      obtain ⟨raw', prop', b, b1, g1, g2, g3⟩ := h k' (List.mem_cons_of_mem _ hk')
      have hne : k' ≠ k := fun e => (List.nodup_cons.mp hn).1 (e ▸ hk')
      exact ⟨raw', prop', b, b1, by rw [dictGet_set, if_neg hne]; exact g1, g2, g3⟩)
    refine ⟨es', ?_⟩
    rw [nameAll, nameRefs, h1]
    simp only
    rw [h2, Option.bind_some, h3]
    exact he

/-! ### references that are numbers -/

theorem mapN_and (F G H : Val → Option Val) (hc : ∀ v w u, F v = some w → G v = some u → H v = some u) : ∀ (n : Nat) (l l1 l2 : List Val),
    mapN F n l = some l1 → mapN G n l = some l2 → mapN H n l = some l2
  | 0, l, l1, l2, h1, h2 => by cases h2; rfl
  | n + 1, [], l1, l2, h1, h2 => by cases h1
  | n + 1, v :: r, l1, l2, h1, h2 => by
    rw [mapN] at h1 h2
    simp only [Option.bind_eq_some_iff, Option.map_eq_some_iff] at h1 h2
    obtain ⟨v1, hv1, r1, hr1, rfl⟩ := h1
    obtain ⟨v2, hv2, r2, hr2, rfl⟩ := h2
    rw [mapN, hc v v1 v2 hv1 hv2, Option.bind_some, mapN_and F G H hc n r r1 r2 hr1 hr2]
    rfl

theorem mapLists_and (F G H : Val → Option Val) (hc : ∀ v w u, F v = some w → G v = some u → H v = some u) : ∀ (k : Nat) (l l1 l2 : List Val),
    mapLists F k l = some l1 → mapLists G k l = some l2 → mapLists H k l = some l2
  | 0, l, l1, l2, h1, h2 => by cases h2; rfl
  | k + 1, [], l1, l2, h1, h2 => by cases h1
  | k + 1, c :: r, l1, l2, h1, h2 => by
    rw [mapLists] at h1 h2
    simp only [Option.bind_eq_some_iff, Option.map_eq_some_iff] at h1 h2
    obtain ⟨n, hn, r1, hr1, t1, ht1, rfl⟩ := h1
    obtain ⟨n', hn', r2, hr2, t2, ht2, rfl⟩ := h2
    rw [hn] at hn'
    cases hn'
    rw [mapN_drop F n r r1 hr1] at ht1
    have ht2' := ht2
    rw [mapN_drop G n r r2 hr2] at ht2'
    have e := mapLists_and F G H hc k _ _ _ ht1 ht2'
    rw [mapLists, hn, Option.bind_some, mapN_and F G H hc n r r1 r2 hr1 hr2, Option.bind_some, mapN_drop G n r r2 hr2, e]
    rfl

theorem mapRef_and (f g h : Text → Option Text) (hc : ∀ t w u, f t = some w → g t = some u → h t = some u) (v w u : Val) (h1 : mapRef f v = some w)
    (h2 : mapRef g v = some u) : mapRef h v = some u := by
  match v, h1, h2 with
  | .list (a :: .str t :: r), h1, h2 =>
    rw [mapRef, Option.map_eq_some_iff] at h1 h2
    obtain ⟨x, hx, rfl⟩ := h1
    obtain ⟨y, hy, rfl⟩ := h2
    rw [mapRef, hc t x y hx hy]
    rfl

theorem mapEnds_and (f g h : Text → Option Text) (hc : ∀ t w u, f t = some w → g t = some u → h t = some u) (v w u : Val) (h1 : mapEnds f v = some w)
    (h2 : mapEnds g v = some u) : mapEnds h v = some u := by
  match v, h1, h2 with
  | .list (a :: x :: y :: r), h1, h2 =>
    rw [mapEnds] at h1 h2
    simp only [Option.bind_eq_some_iff, Option.map_eq_some_iff] at h1 h2
    obtain ⟨x1, hx1, y1, hy1, rfl⟩ := h1
    obtain ⟨x2, hx2, y2, hy2, rfl⟩ := h2
    rw [mapEnds, mapRef_and f g h hc x x1 x2 hx1 hx2, Option.bind_some, mapRef_and f g h hc y y1 y2 hy1 hy2]
    rfl

theorem mapRefs_and (f f' f2 g g' g2 : Text → Option Text) (hf : ∀ t w u, f t = some w → f' t = some u → f2 t = some u)
    (hg : ∀ t w u, g t = some w → g' t = some u → g2 t = some u) (a a1 b : List Val) (h1 : mapRefs f g a = some a1) (h2 : mapRefs f' g' a = some b) :
    mapRefs f2 g2 a = some b := by
  rw [mapRefs] at h1 h2
  simp only [Option.bind_eq_some_iff, Option.map_eq_some_iff] at h1 h2
  obtain ⟨b1, hb1, c1, hc1, rfl⟩ := h1
  obtain ⟨b2, hb2, c2, hc2, rfl⟩ := h2
  have e := mapN_and _ _ _ (mapEnds_and f f' f2 hf) 6 _ b1 b2 hb1 hb2
  rw [mapN_drop _ 6 _ b1 hb1] at hc1
  have hc2' := hc2
  rw [mapN_drop _ 6 _ b2 hb2] at hc2'
  have e2 := mapLists_and _ _ _ (mapRef_and g g' g2 hg) 4 _ c1 c2 hc1 hc2'
  rw [mapRefs, e, Option.bind_some, mapN_drop _ 6 _ b2 hb2, e2]
  rfl

/-- the references of an element numbered anew can be named -/
theorem names_again (index1 index2 : List (Val × Text)) (M : List (Val × Text)) (hM : ∀ v u, dictGet M v = some u → ∃ n, num u = some n) (id1 : Text)
    (hid : ∃ n, num id1 = some n) (path : Text) (o1 o2 : Text → Text) (a a1 b : List Val)
    (h1 : mapRefs (toName index1 path o1) (toName index1 path id) a = some a1)
    (h2 : mapRefs (fun t => some (newRef M (fun _ => id1) t)) (fun t => some (newRef M (fun t => t) t)) a = some b) :
    ∃ c, mapRefs (toName index2 path o2) (toName index2 path id) b = some c := by
  have hnum : ∀ (o : Text → Text) t, (∃ n, num t = some n) → (∃ n, num (o t) = some n) → ∃ n, num (newRef M o t) = some n := by
    intro o t ht ho
    rcases newRef_cases M o t with ⟨n, hn, h0, hd⟩ | ⟨n, hn, h0, hd, he⟩ | ⟨_, he⟩
    · exact hM _ _ hd
    · rw [he]; exact ho
    · rw [he]; exact ht
  have h3 := mapRefs_and _ _ (fun t => (num t).map (fun _ => newRef M (fun _ => id1) t)) _ _ (fun t => (num t).map (fun _ => newRef M (fun t => t) t))
    (by
      intro t w u hw hu
      rw [toName, Option.map_eq_some_iff] at hw
      obtain ⟨n, hn, _⟩ := hw
      rw [hn]
      exact hu)
    (by
      intro t w u hw hu
      rw [toName, Option.map_eq_some_iff] at hw
      obtain ⟨n, hn, _⟩ := hw
      rw [hn]
      exact hu) a a1 b h1 h2
  have hname : ∀ o t, (∃ n, num t = some n) → toName index2 path o t = some ((toName index2 path o t).getD []) := by
    intro o t ht
    obtain ⟨n, hn⟩ := ht
    rw [toName, hn]
    rfl
  obtain ⟨c, hc, _⟩ := mapRefs_comp _ _ (toName index2 path o2) (toName index2 path id)
    (fun t => (toName index2 path o2 (newRef M (fun _ => id1) t)).getD []) (fun t => (toName index2 path id (newRef M (fun t => t) t)).getD [])
    (by
      intro t u hu
      rw [Option.map_eq_some_iff] at hu
      obtain ⟨n, hn, rfl⟩ := hu
      exact hname _ _ (hnum _ t ⟨n, hn⟩ hid))
    (by
      intro t u hu
      rw [Option.map_eq_some_iff] at hu
      obtain ⟨n, hn, rfl⟩ := hu
      exact hname _ _ (hnum _ t ⟨n, hn⟩ ⟨n, hn⟩)) a b h3
  exact ⟨c, hc⟩

/-! ### the order of pages -/

theorem byKey_filter {α : Type} (key : α → Option Nat) (l : List α) (i : Nat) : ∀ n, i < n →
    (byKey key n l).filter (fun x => decide (key x = some i)) = l.filter (fun x => decide (key x = some i))
  | 0, h => by omega
  | n + 1, h => by
    rw [byKey_succ, List.filter_append]
    by_cases hi : i = n
    · subst hi
      have h1 : (byKey key i l).filter (fun x => decide (key x = some i)) = [] := by
        rw [List.filter_eq_nil_iff]
        intro x hx hd
        obtain ⟨p, hp, hk⟩ := byKey_low key i l x hx
        have := of_decide_eq_true hd
        rw [hk] at this
        cases this
        omega
      rw [h1, List.nil_append, List.filter_filter]
      simp only [Bool.and_self]
    · have h1 : (l.filter (fun x => decide (key x = some n))).filter (fun x => decide (key x = some i)) = [] := by
        rw [List.filter_eq_nil_iff]
        intro x hx hd
        have h2 := of_decide_eq_true (List.mem_filter.mp hx).2
        have h3 := of_decide_eq_true hd
        rw [h2] at h3
        cases h3
        exact hi rfl
      rw [h1, List.append_nil, byKey_filter key l i n (by omega)]

end V8.OAuto
