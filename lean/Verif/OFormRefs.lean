import Verif.OFormAuto
import Verif.OFormWhole
/-
Lemmas about the references between the elements of an ordinary form.
-/
namespace V8.OAuto
open V8.Brace V8.Dec
open V8.Form (count countAt dictGet marker nonEmpty calcOffset truthy Rec)
open V8.OForm hiding formOut formIn elemOut elemIn elemsOut elemsIn elemsLoop

theorem mapN_length (f : Val → Option Val) : ∀ (n : Nat) (l l' : List Val), mapN f n l = some l' → l'.length = l.length ∧ n ≤ l.length
  | 0, l, l', h => by cases h; exact ⟨rfl, Nat.zero_le _⟩
  | n + 1, [], l', h => by cases h
  | n + 1, v :: r, l', h => by
    rw [mapN] at h
    simp only [Option.bind_eq_some_iff, Option.map_eq_some_iff] at h
    obtain ⟨v', _, r', hr, rfl⟩ := h
    have := mapN_length f n r r' hr
    simp only [List.length_cons]
    omega

theorem mapN_drop (f : Val → Option Val) : ∀ (n : Nat) (l l' : List Val), mapN f n l = some l' → l'.drop n = l.drop n
  | 0, l, l', h => by cases h; rfl
  | n + 1, [], l', h => by cases h
  | n + 1, v :: r, l', h => by
    rw [mapN] at h
    simp only [Option.bind_eq_some_iff, Option.map_eq_some_iff] at h
    obtain ⟨v', _, r', hr, rfl⟩ := h
    exact mapN_drop f n r r' hr

theorem mapN_take (f : Val → Option Val) (t t' : List Val) : ∀ (n : Nat) (l l' : List Val), mapN f n l = some l' → n ≤ l.length →
    mapN f n (l.take n ++ t) = some (l'.take n ++ t)
  | 0, l, l', h, _ => by cases h; rfl
  | n + 1, [], l', h, _ => by cases h
  | n + 1, v :: r, l', h, hn => by
    rw [mapN] at h
    simp only [Option.bind_eq_some_iff, Option.map_eq_some_iff] at h
    obtain ⟨v', hv, r', hr, rfl⟩ := h
    have := mapN_take f t t' n r r' hr (by simpa using hn)
    rw [List.take_succ_cons, List.cons_append, mapN, hv, Option.bind_some, this]
    rfl

theorem mapN_comp (F G H : Val → Option Val) (hc : ∀ v w, F v = some w → ∃ u, G w = some u ∧ H v = some u) :
    ∀ (n : Nat) (l l' : List Val), mapN F n l = some l' → ∃ m, mapN G n l' = some m ∧ mapN H n l = some m
  | 0, l, l', h => by cases h; exact ⟨_, rfl, rfl⟩
  | n + 1, [], l', h => by cases h
  | n + 1, v :: r, l', h => by
    rw [mapN] at h
    simp only [Option.bind_eq_some_iff, Option.map_eq_some_iff] at h
    obtain ⟨v', hv, r', hr, rfl⟩ := h
    obtain ⟨u, hu1, hu2⟩ := hc v v' hv
    obtain ⟨m, hm1, hm2⟩ := mapN_comp F G H hc n r r' hr
    exact ⟨u :: m, by rw [mapN, hu1, Option.bind_some, hm1]; rfl, by rw [mapN, hu2, Option.bind_some, hm2]; rfl⟩

theorem mapLists_comp (F G H : Val → Option Val) (hc : ∀ v w, F v = some w → ∃ u, G w = some u ∧ H v = some u) :
    ∀ (k : Nat) (l l' : List Val), mapLists F k l = some l' → ∃ m, mapLists G k l' = some m ∧ mapLists H k l = some m
  | 0, l, l', h => by cases h; exact ⟨_, rfl, rfl⟩
  | k + 1, [], l', h => by cases h
  | k + 1, c :: r, l', h => by
    rw [mapLists] at h
    simp only [Option.bind_eq_some_iff, Option.map_eq_some_iff] at h
    obtain ⟨n, hn, r1, hr1, t1, ht1, rfl⟩ := h
    obtain ⟨m, hm1, hm2⟩ := mapN_comp F G H hc n r r1 hr1
    rw [mapN_drop F n r r1 hr1] at ht1
    obtain ⟨t, ht, ht'⟩ := mapLists_comp F G H hc k _ _ ht1
    have hl := mapN_length F n r r1 hr1
    have e1 : mapN G n (r1.take n ++ t1) = some (m.take n ++ t1) := mapN_take G t1 t1 n r1 m hm1 (by omega)
    have hm := mapN_length G n r1 m hm1
    have e2 : (m.take n).length = n := by rw [List.length_take]; omega
    refine ⟨c :: (m.take n ++ t), ?_, ?_⟩
    · rw [mapLists, hn, Option.bind_some, e1, Option.bind_some, List.drop_left' e2, ht, List.take_left' e2]
      rfl
    · rw [mapLists, hn, Option.bind_some, hm2, Option.bind_some, mapN_drop H n r m hm2, ht']
      rfl

theorem mapRef_comp (f f' : Text → Option Text) (F : Text → Text) (hf : ∀ t u, f t = some u → f' u = some (F t)) (v w : Val)
    (h : mapRef f v = some w) : ∃ u, mapRef f' w = some u ∧ mapRef (fun t => some (F t)) v = some u := by
  match v, h with
  | .list (a :: .str t :: r), h =>
    rw [mapRef, Option.map_eq_some_iff] at h
    obtain ⟨u, hu, rfl⟩ := h
    exact ⟨.list (a :: .str (F t) :: r), by rw [mapRef, hf t u hu]; rfl, rfl⟩

theorem mapEnds_comp (f f' : Text → Option Text) (F : Text → Text) (hf : ∀ t u, f t = some u → f' u = some (F t)) (v w : Val)
    (h : mapEnds f v = some w) : ∃ u, mapEnds f' w = some u ∧ mapEnds (fun t => some (F t)) v = some u := by
  match v, h with
  | .list (a :: x :: y :: r), h =>
    rw [mapEnds] at h
    simp only [Option.bind_eq_some_iff, Option.map_eq_some_iff] at h
    obtain ⟨x', hx, y', hy, rfl⟩ := h
    obtain ⟨u, hu, hu'⟩ := mapRef_comp f f' F hf x x' hx
    obtain ⟨z, hz, hz'⟩ := mapRef_comp f f' F hf y y' hy
    exact ⟨.list (a :: u :: z :: r), by rw [mapEnds, hu, Option.bind_some, hz]; rfl, by rw [mapEnds, hu', Option.bind_some, hz']; rfl⟩

/-- translating the references twice is translating them once -/
theorem mapRefs_comp (f g f' g' : Text → Option Text) (F G : Text → Text) (hf : ∀ t u, f t = some u → f' u = some (F t))
    (hg : ∀ t u, g t = some u → g' u = some (G t)) (a a1 : List Val) (h : mapRefs f g a = some a1) :
    ∃ b, mapRefs f' g' a1 = some b ∧ mapRefs (fun t => some (F t)) (fun t => some (G t)) a = some b := by
  rw [mapRefs] at h
  simp only [Option.bind_eq_some_iff, Option.map_eq_some_iff] at h
  obtain ⟨b, hb, c, hc, rfl⟩ := h
  obtain ⟨m, hm1, hm2⟩ := mapN_comp _ _ _ (mapEnds_comp f f' F hf) 6 _ b hb
  rw [mapN_drop _ 6 _ b hb] at hc
  obtain ⟨d, hd1, hd2⟩ := mapLists_comp _ _ _ (mapRef_comp g g' G hg) 4 _ c hc
  have hl := mapN_length _ 6 _ b hb
  rw [List.length_drop] at hl
  have ha : (a.take 6).length = 6 := by rw [List.length_take]; omega
  have e1 := mapN_take _ c c 6 b m hm1 (by omega)
  have hm := mapN_length _ 6 b m hm1
  have e2 : (m.take 6).length = 6 := by rw [List.length_take]; omega
  refine ⟨a.take 6 ++ (m.take 6 ++ d), ?_, ?_⟩
  · rw [mapRefs, List.drop_left' ha, List.take_left' ha, e1, Option.bind_some, List.drop_left' e2, hd1, List.take_left' e2]
    rfl
  · rw [mapRefs, hm2, Option.bind_some, mapN_drop _ 6 _ m hm2, hd2]
    rfl

/-! ### references to the panel -/

theorem hitsFrom_take (id : Text) (t : List Val) : ∀ (n b : Nat) (l : List Val), n ≤ l.length → hitsFrom id b n (l.take n ++ t) = hitsFrom id b n l
  | 0, b, l, _ => by rw [hitsFrom, hitsFrom]
  | n + 1, b, [], h => by simp at h
  | n + 1, b, v :: r, h => by
    rw [List.take_succ_cons, List.cons_append, hitsFrom, hitsFrom, hitsFrom_take id t n (b + 1) r (by simpa using h)]

theorem endHit_map (f : Text → Option Text) (hf : ∀ t u, f t = some u → (u = ['0'] ↔ t = ['0'])) (id : Text) (b : Nat) (first v w : Val)
    (h : mapRef f v = some w) : endHit id b first w = endHit id b first v := by
  match v, h with
  | .list (a :: .str t :: r), h =>
    rw [mapRef, Option.map_eq_some_iff] at h
    obtain ⟨u, hu, rfl⟩ := h
    rw [endHit, endHit]
    by_cases h0 : t = ['0']
    · rw [if_pos h0, if_pos ((hf t u hu).mpr h0)]
    · rw [if_neg h0, if_neg (fun h => h0 ((hf t u hu).mp h))]

theorem borderHits_map (f : Text → Option Text) (hf : ∀ t u, f t = some u → (u = ['0'] ↔ t = ['0'])) (id : Text) (b : Nat) (v w : Val)
    (h : mapEnds f v = some w) : borderHits id b w = borderHits id b v := by
  match v, h with
  | .list (a :: x :: y :: r), h =>
    rw [mapEnds] at h
    simp only [Option.bind_eq_some_iff, Option.map_eq_some_iff] at h
    obtain ⟨x', hx, y', hy, rfl⟩ := h
    rw [borderHits, borderHits, endHit_map f hf id _ a x x' hx, endHit_map f hf id _ a y y' hy]

theorem hitsFrom_map (f : Text → Option Text) (hf : ∀ t u, f t = some u → (u = ['0'] ↔ t = ['0'])) (id : Text) :
    ∀ (n b : Nat) (l l' : List Val), mapN (mapEnds f) n l = some l' → hitsFrom id b n l' = hitsFrom id b n l
  | 0, b, l, l', h => by rw [hitsFrom, hitsFrom]
  | n + 1, b, [], l', h => by cases h
  | n + 1, b, v :: r, l', h => by
    rw [mapN] at h
    simp only [Option.bind_eq_some_iff, Option.map_eq_some_iff] at h
    obtain ⟨v', hv, r', hr, rfl⟩ := h
    rw [hitsFrom, hitsFrom, borderHits_map f hf id b v v' hv, hitsFrom_map f hf id n (b + 1) r r' hr]

/-- translating the other references does not change what is tied to the panel -/
theorem hits_map (f g : Text → Option Text) (hf : ∀ t u, f t = some u → (u = ['0'] ↔ t = ['0'])) (id : Text) (a a1 : List Val)
    (h : mapRefs f g a = some a1) : hits id a1 = hits id a := by
  rw [mapRefs] at h
  simp only [Option.bind_eq_some_iff, Option.map_eq_some_iff] at h
  obtain ⟨b, hb, c, hc, rfl⟩ := h
  have hl := mapN_length _ 6 _ b hb
  rw [List.length_drop] at hl
  have ha : (a.take 6).length = 6 := by rw [List.length_take]; omega
  rw [hits, hits, List.drop_left' ha, hitsFrom_take id c 6 0 b (by omega), hitsFrom_map f hf id 6 0 _ b hb]

theorem mapRefs_length (f g : Text → Option Text) (a a1 : List Val) (h : mapRefs f g a = some a1) : 6 ≤ a.length := by
  rw [mapRefs] at h
  simp only [Option.bind_eq_some_iff, Option.map_eq_some_iff] at h
  obtain ⟨b, hb, c, hc, rfl⟩ := h
  have hl := mapN_length _ 6 _ b hb
  rw [List.length_drop] at hl
  omega

end V8.OAuto
