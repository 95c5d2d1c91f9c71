import Verif.FormJsonLemmas
import Verif.OFormLemmas
/-
The tree of pages and elements that extraction with the option auto_include makes is one that `<form>.elem.json` holds as it is.
-/
namespace V8.OAuto
open V8.Brace V8.Dec
open V8.Form (count countAt dictGet marker nonEmpty calcOffset truthy Rec)
open V8.OForm hiding formOut formIn elemOut elemIn elemsOut elemsIn elemsLoop takeApart
open V8.FormJson (Shaped ShapedAll shapedAll_of)

theorem treeOf_shaped (names : List Text) (its : List Item) (h : ∀ it ∈ its, Shaped it.node) : ShapedAll (treeOf names its) := by
  refine shapedAll_of _ (fun n hn => ?_)
  rw [treeOf, List.mem_map] at hn
  obtain ⟨i, _, rfl⟩ := hn
  rw [Shaped]
  refine ⟨rfl, fun _ h2 => absurd rfl h2, shapedAll_of _ (fun n hn => ?_)⟩
  obtain ⟨it, hit, rfl⟩ := List.mem_map.mp hn
  exact h it (List.mem_filter.mp hit).1

theorem loop_shaped (f : Bool → List Val → Option Item) (hf : ∀ k raw it, f k raw = some it → Shaped it.node) :
    ∀ (n : Nat) (l : List Val) (its : List Item), elemsLoop f n l = some its → ∀ it ∈ its, Shaped it.node
  | 0, _, its, h => by
    rw [elemsLoop] at h
    replace h := Option.some.inj h
    subst h
    intro it hit
    cases hit
  | n + 1, [], its, h => by cases h
  | n + 1, .none :: _, its, h => by cases h
  | n + 1, .str _ :: _, its, h => by cases h
  | n + 1, .list [] :: _, its, h => by cases h
  | n + 1, .list (.none :: _) :: _, its, h => by cases h
  | n + 1, .list (.list _ :: _) :: _, its, h => by cases h
  | n + 1, .list (.str u :: raw) :: rest, its, h => by
    rw [elemsLoop] at h
    simp only [Option.bind_eq_some_iff, Option.map_eq_some_iff] at h
    obtain ⟨k, _, it, h1, its', h2, h3⟩ := h
    subst h3
    intro i hi
    rcases List.mem_cons.mp hi with rfl | hi
    · exact hf _ _ _ h1
    · exact loop_shaped f hf n rest its' h2 i hi

theorem elems_shaped (f : Bool → List Val → Option Item) (hf : ∀ k raw it, f k raw = some it → Shaped it.node) (path : Text) (names : List Text)
    (raw : List Val) (o : List Val × List Node × List (Text × Entry)) (h : elemsOut f path names raw = some o) : ShapedAll o.2.1 := by
  rw [elemsOut] at h
  cases hc : countAt raw 0 with
  | none => rw [hc] at h; cases h
  | some n =>
    rw [hc] at h
    cases n with
    | zero =>
      replace h := Option.some.inj h
      subst h
      exact treeOf_shaped names [] (fun _ h => by cases h)
    | succ n =>
      simp only [Option.bind_eq_some_iff, Option.map_eq_some_iff] at h
      obtain ⟨its, h1, es, _, h3⟩ := h
      subst h3
      exact treeOf_shaped names its (loop_shaped f hf _ _ its h1)

theorem panel_shaped (f : List Text → Bool → List Val → Option Item) (hf : ∀ ns k raw it, f ns k raw = some it → Shaped it.node) (path : Text)
    (pr er : List Val) (o : List Val × List Val × List Node × List (Text × Entry)) (h : panelOut f path pr er = some o) : ShapedAll o.2.2.1 := by
  rw [panelOut] at h
  simp only [Option.bind_eq_some_iff, Option.map_eq_some_iff] at h
  obtain ⟨p, _, pr', _, e, h3, h4⟩ := h
  subst h4
  exact elems_shaped _ (hf _) _ _ _ e h3

theorem elem_shaped (P : List (Val × Text)) : ∀ (depth : Nat) (path : Text) (names : List Text) (k : Bool) (raw : List Val) (it : Item),
    elemOut P depth path names k raw = some it → Shaped it.node
  | 0, _, _, _, _, _, h => by cases h
  | depth + 1, path, names, k, raw, it, h => by
    rw [elemOut] at h
    simp only [Option.bind_eq_some_iff] at h
    obtain ⟨hd, _, i, _, h⟩ := h
    cases k with
    | false =>
      rw [if_pos rfl] at h
      replace h := Option.some.inj h
      subst h
      rw [Shaped]
      exact ⟨rfl, fun _ _ => rfl, shapedAll_of _ (fun _ h => by cases h)⟩
    | true =>
      rw [if_neg (by decide)] at h
      by_cases hl : raw.length < 6
      · rw [if_pos hl] at h; cases h
      · rw [if_neg hl] at h
        simp only [Option.bind_eq_some_iff, Option.map_eq_some_iff] at h
        obtain ⟨pr, _, er, _, o, ho, h⟩ := h
        subst h
        rw [Shaped]
        exact ⟨rfl, fun h1 => absurd rfl h1, panel_shaped _ (elem_shaped P depth _) _ _ _ _ ho⟩

theorem form_shaped (ni depth : Nat) (raw raw' : List Val) (s : Src) (h : formOut ni depth raw = some (raw', s)) : ShapedAll s.tree := by
  rw [formOut] at h
  simp only [Option.bind_eq_some_iff] at h
  obtain ⟨al, _, a, _, panel, _, h⟩ := h
  by_cases hk : panel[0]? ≠ some (.str panelKind)
  · rw [if_pos hk] at h; cases h
  · rw [if_neg hk] at h
    simp only [Option.bind_eq_some_iff, Option.map_eq_some_iff, Prod.mk.injEq] at h
    obtain ⟨P, _, pr, _, er, _, o, ho, _, h⟩ := h
    subst h
    exact panel_shaped _ (elem_shaped P depth _) _ _ _ _ ho

/-- the first entry of the form stays -/
theorem formOut_zero {ni depth : Nat} {raw raw' : List Val} {s : Src} (h : formOut ni depth raw = some (raw', s)) : raw'[0]? = raw[0]? := by
  rw [formOut] at h
  simp only [Option.bind_eq_some_iff] at h
  obtain ⟨al, _, a, _, panel, _, h⟩ := h
  by_cases hk : panel[0]? ≠ some (.str panelKind)
  · rw [if_pos hk] at h; cases h
  · rw [if_neg hk] at h
    simp only [Option.bind_eq_some_iff, Option.map_eq_some_iff, Prod.mk.injEq] at h
    obtain ⟨P, _, pr, _, er, _, o, ho, h, _⟩ := h
    rw [← h, set2_ne _ _ _ _ _ (by decide), set2_ne _ _ _ _ _ (by decide)]

end V8.OAuto
