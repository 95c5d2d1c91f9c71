import Verif.CodeSpec
namespace V8.Code
open V8.Str

/-! ### strings -/

theorem starts_iff (p s : Text) : starts p s = true ↔ p <+: s := by
  unfold starts; exact List.isPrefixOf_iff_prefix

theorem lstrip_suffix (s : Text) : lstrip s <:+ s := List.dropWhile_suffix _

theorem rstrip_prefix (s : Text) : rstrip s <+: s := by
  unfold rstrip
  have := List.dropWhile_suffix (l := s.reverse) isSpace
  have := List.reverse_prefix.mpr this
  rwa [List.reverse_reverse] at this

theorem strip_infix (s : Text) : strip s <:+: s :=
  (rstrip_prefix _).isInfix.trans (lstrip_suffix s).isInfix

theorem dropWhile_append_stop (p : Char → Bool) (a : Text) (c : Char) (b : Text) (hc : p c = false) :
    (a ++ c :: b).dropWhile p = a.dropWhile p ++ c :: b := by
  induction a with
  | nil => simp [hc]
  | cons d a ih =>
    simp only [List.cons_append, List.dropWhile_cons]
    split
    · exact ih
    · rfl

theorem rstrip_append (a : Text) (c : Char) (b : Text) (hc : isSpace c = false) :
    rstrip (a ++ c :: b) = a ++ c :: rstrip b := by
  unfold rstrip
  rw [List.reverse_append, List.reverse_cons, List.append_assoc, List.singleton_append,
    dropWhile_append_stop _ _ _ _ hc]
  simp

theorem strip_append (a : Text) (c0 c : Char) (b : Text) (h0 : isSpace c0 = false) (hc : isSpace c = false) :
    strip (c0 :: a ++ c :: b) = c0 :: a ++ c :: rstrip b := by
  unfold strip
  have : lstrip (c0 :: a ++ c :: b) = c0 :: a ++ c :: b := by
    unfold lstrip
    rw [List.cons_append, List.dropWhile_cons, h0]; simp
  rw [this, rstrip_append _ _ _ hc]

theorem rfindDrop_some {pat s r : Text} (h : rfindDrop pat s = some r) : pat <+: r ∧ r <:+ s := by
  induction s with
  | nil => simp [rfindDrop] at h
  | cons c t ih =>
    rw [rfindDrop] at h
    split at h
    · rename_i x hx
      injection h with h; subst h
      have := ih hx
      exact ⟨this.1, this.2.trans (List.suffix_cons _ _)⟩
    · split at h
      · rename_i hp
        injection h with h; subst h
        exact ⟨(starts_iff _ _).mp hp, List.suffix_refl _⟩
      · cases h

theorem rfindDrop_append (pat x s r : Text) (h : rfindDrop pat s = some r) : rfindDrop pat (x ++ s) = some r := by
  induction x with
  | nil => exact h
  | cons c t ih => rw [List.cons_append, rfindDrop, ih]

def pat : Text := " //DynamicDirective".toList

theorem pat_eq : pat = ' ' :: marker := by decide

theorem rfindDrop_none (s : Text) (h : ¬ marker <:+: s) : rfindDrop pat s = none := by
  cases hr : rfindDrop pat s with
  | none => rfl
  | some r =>
    obtain ⟨h1, h2⟩ := rfindDrop_some hr
    exfalso
    apply h
    rw [pat_eq] at h1
    have : marker <:+: r := by
      obtain ⟨t, ht⟩ := h1
      exact ⟨[' '], t, by rw [← ht]; simp⟩
    exact this.trans h2.isInfix

theorem dynStrip_id (l : Text) (h : ¬ marker <:+: l) : dynStrip l = l := by
  unfold dynStrip
  rw [show " //DynamicDirective".toList = pat from rfl, rfindDrop_none l h]

theorem rfindDrop_marker (tail : Text) (h : ¬ marker <:+: tail) :
    rfindDrop pat (' ' :: (marker ++ tail)) = some (' ' :: (marker ++ tail)) := by
  have key : ∀ w : Text, ' ' ∉ w → rfindDrop pat (w ++ tail) = none := by
    intro w hw
    induction w with
    | nil => exact rfindDrop_none tail h
    | cons c w ih =>
      simp only [List.mem_cons, not_or] at hw
      rw [List.cons_append, rfindDrop, ih hw.2]
      simp only
      rw [if_neg]
      rw [starts_iff, pat_eq]
      intro hp
      rw [List.cons_prefix_cons] at hp
      exact hw.1 hp.1
  rw [rfindDrop, key marker (by decide)]
  simp only
  rw [if_pos]
  rw [starts_iff, pat_eq]
  exact ⟨tail, by simp⟩

theorem dynStrip_dyn (x tail : Text) (hx : '&' ∈ x) (h : ¬ marker <:+: tail) :
    dynStrip (x ++ ' ' :: (marker ++ tail)) = marker ++ tail := by
  unfold dynStrip
  rw [show " //DynamicDirective".toList = pat from rfl, rfindDrop_append _ _ _ _ (rfindDrop_marker tail h)]
  simp [hx]

theorem dynStrip_suffix (l : Text) : dynStrip l <:+ l := by
  unfold dynStrip
  split
  · rename_i r hr
    split
    · exact (List.drop_suffix _ _).trans (rfindDrop_some hr).2
    · exact List.suffix_refl _
  · exact List.suffix_refl _

theorem dynStrip_ne (l : Text) (h : l ≠ []) : dynStrip l ≠ [] := by
  unfold dynStrip
  split
  · rename_i r hr
    split
    · obtain ⟨t, ht⟩ := (rfindDrop_some hr).1
      rw [← ht]; simp
    · exact h
  · exact h

theorem strip_marker (tail : Text) : strip (marker ++ tail) = marker ++ rstrip tail :=
  strip_append "/DynamicDirectiv".toList '/' 'e' tail (by decide) (by decide)

theorem included_marker (tail : Text) : included (marker ++ tail) = none := by
  unfold included
  simp only
  have : isArea (strip (marker ++ tail)) = none := by
    rw [strip_marker]
    unfold isArea
    have e : (marker ++ rstrip tail).take 17 = marker.take 17 := by
      rw [List.take_append_of_le_length (by decide)]
    rw [e, if_neg (by decide), if_neg (by decide)]
  rw [this]

theorem included_of_kind (l : Text) :
    included l = match kind l with
      | .area _ key d => some (key, d)
      | _ => none := by
  unfold included kind
  simp only
  cases h : isArea (strip l) with
  | none =>
    by_cases c1 : (strip l).head? = some '#'
    · by_cases c2 : starts "#Область".toList (strip l) = true
      · rw [if_pos c1, if_pos c2]
      · by_cases c3 : starts "#КонецОбласти".toList (strip l) = true
        · rw [if_pos c1, if_neg c2, if_pos c3]
        · rw [if_pos c1, if_neg c2, if_neg c3]
    · rw [if_neg c1]
  | some typ =>
    have hp : "#Область".toList <+: strip l := by
      have h17 : (strip l).take 17 <+: strip l := List.take_prefix _ _
      unfold isArea at h
      split at h
      · rename_i e; rw [e] at h17
        exact (show "#Область".toList <+: "#Область include_".toList by decide).trans h17
      · split at h
        · rename_i e; rw [e] at h17
          exact (show "#Область".toList <+: "#Область includr_".toList by decide).trans h17
        · cases h
    have hh : (strip l).head? = some '#' := by
      obtain ⟨t, ht⟩ := hp
      rw [← ht]; rfl
    rw [if_pos hh, if_pos ((starts_iff _ _).mpr hp)]

theorem dynRestore_id (d : Option Text) (l : Text) (h : ¬ marker <:+: l) : dynRestore d l = l := by
  unfold dynRestore
  split
  · rw [if_neg]
    rintro ⟨_, hs⟩
    rw [starts_iff] at hs
    exact h (hs.isInfix.trans (strip_infix l))
  · rfl

theorem dynRestore_dyn (x tail : Text) (hx : x ≠ []) : dynRestore (some x) (marker ++ tail) = x ++ ' ' :: (marker ++ tail) := by
  unfold dynRestore
  simp only
  rw [if_pos]
  refine ⟨hx, ?_⟩
  rw [starts_iff, strip_marker]
  exact List.prefix_append _ _

/-- a plain line comes back -/
theorem line_back (d : Option Text) (l : Text) (hk : kind l = .other) (h : LineOK d l) :
    included (dynStrip l) = none ∧ dynRestore d (dynStrip l) = l := by
  rcases h with h | ⟨x, tail, rfl, rfl, hx, ht⟩
  · rw [dynStrip_id l h, included_of_kind, hk]
    exact ⟨rfl, dynRestore_id d l h⟩
  · rw [dynStrip_dyn x tail hx ht]
    exact ⟨included_marker tail, dynRestore_dyn x tail (by rintro rfl; simp at hx)⟩

/-! ### lines -/

def Good (ls : List Text) : Prop :=
  (∀ l ∈ ls, l ≠ [] ∧ ∀ a b, l = a ++ '\n' :: b → b = []) ∧ ∀ l ∈ ls.dropLast, ∃ a, l = a ++ ['\n']

theorem sublist_dropLast {a b : List Text} (h : a.Sublist b) : a.dropLast.Sublist b.dropLast := by
  have := h.reverse.tail
  have := this.reverse
  rwa [List.tail_reverse, List.tail_reverse, List.reverse_reverse, List.reverse_reverse] at this

theorem good_sublist {a b : List Text} (h : a.Sublist b) (hb : Good b) : Good a :=
  ⟨fun l hl => hb.1 l (h.subset hl), fun l hl => hb.2 l ((sublist_dropLast h).subset hl)⟩

theorem lines_mem_ne (t : Text) : ∀ l ∈ Brace.lines t, l ≠ [] := by
  induction t with
  | nil => simp [Brace.lines]
  | cons c t ih =>
    rw [Brace.lines]
    split
    · intro l hl
      rcases List.mem_cons.mp hl with rfl | hl
      · simp
      · exact ih l hl
    · split
      · intro l hl; simp at hl; subst hl; simp
      · rename_i m ms hms
        rw [hms] at ih
        intro l hl
        rcases List.mem_cons.mp hl with rfl | hl
        · simp
        · exact ih l (by simp [hl])

theorem good_of_proper {ls : List Text} (h : ProperLines ls) : Good ls := by
  unfold ProperLines at h
  have h1 := Brace.lines_shape ls.flatten
  have h2 := lines_mem_ne ls.flatten
  rw [h] at h1 h2
  refine ⟨fun l hl => ⟨h2 l hl, h1.1 l hl⟩, ?_⟩
  intro l hl
  obtain ⟨p, q, hpq⟩ := List.append_of_mem hl
  have hne : ls ≠ [] := by rintro rfl; simp at hl
  have := List.dropLast_concat_getLast hne
  rw [hpq] at this
  generalize ls.getLast hne = w at this
  cases q with
  | nil => exact h1.2 l w [] p (by rw [← this]; simp)
  | cons q0 q => exact h1.2 l q0 (q ++ [w]) p (by rw [← this]; simp)

theorem proper_of_good {ls : List Text} (h : Good ls) : ProperLines ls := by
  unfold ProperLines
  induction ls with
  | nil => rfl
  | cons l r ih =>
    cases r with
    | nil =>
      rw [List.flatten_singleton]
      obtain ⟨h1, h2⟩ := h.1 l (by simp)
      clear h ih
      induction l with
      | nil => exact absurd rfl h1
      | cons c l ih =>
        by_cases hl : l = []
        · subst hl
          rw [Brace.lines]
          split
          · rename_i hc; subst hc; rfl
          · rfl
        · have hc : c ≠ '\n' := by
            rintro rfl
            exact hl (h2 [] l rfl)
          rw [Brace.lines_cons _ _ hc, ih hl (fun a b e => h2 (c :: a) b (by rw [e]; rfl))]
    | cons l2 r =>
      obtain ⟨a, ha⟩ := h.2 l (by simp)
      have ih' := ih (good_sublist (List.sublist_cons_self _ _) h)
      have hnl : '\n' ∉ a := by
        intro hm
        obtain ⟨p, q, hpq⟩ := List.append_of_mem hm
        have := (h.1 l (by simp)).2 p (q ++ ['\n']) (by rw [ha, hpq]; simp)
        simp at this
      rw [List.flatten_cons, ha, List.append_assoc, List.singleton_append, Brace.lines_append _ _ hnl, ih']

theorem good_map (ls : List Text) (h : Good ls) : Good (ls.map dynStrip) := by
  have hsuf : ∀ l : Text, (∃ a, l = a ++ ['\n']) → l ≠ [] → ∃ a, dynStrip l = a ++ ['\n'] := by
    rintro l ⟨a, ha⟩ hne
    obtain ⟨b, hb⟩ := dynStrip_suffix l
    have hn := dynStrip_ne l hne
    rw [← List.dropLast_concat_getLast hn] at hb ⊢
    generalize (dynStrip l).getLast hn = w at hb ⊢
    generalize (dynStrip l).dropLast = v at hb ⊢
    rw [ha, ← List.append_assoc] at hb
    have := (List.append_inj' hb rfl).2
    exact ⟨_, by rw [this]⟩
  constructor
  · intro l hl
    obtain ⟨l0, h0, rfl⟩ := List.mem_map.mp hl
    refine ⟨dynStrip_ne _ (h.1 l0 h0).1, ?_⟩
    intro a b e
    obtain ⟨x, hx⟩ := dynStrip_suffix l0
    exact (h.1 l0 h0).2 (x ++ a) b (by rw [← hx, e]; simp)
  · intro l hl
    rw [← List.map_dropLast] at hl
    obtain ⟨l0, h0, rfl⟩ := List.mem_map.mp hl
    exact hsuf l0 (h.2 l0 h0) (h.1 l0 (List.dropLast_subset _ h0)).1

mutual
def Node.ownRaw : Node → List Text
  | .line l => [l]
  | .region a b z => a :: nodesOwnRaw b ++ [z]
  | .area a _ z => [a, z]
def nodesOwnRaw : List Node → List Text
  | [] => []
  | n :: r => n.ownRaw ++ nodesOwnRaw r
end

mutual
theorem own_eq : ∀ n : Node, n.own = n.ownRaw.map dynStrip
  | .line l => rfl
  | .region a b z => by rw [Node.own, Node.ownRaw, nodesOwn_eq b]; simp
  | .area a b z => rfl
theorem nodesOwn_eq : ∀ m : List Node, nodesOwn m = (nodesOwnRaw m).map dynStrip
  | [] => rfl
  | n :: r => by rw [nodesOwn, nodesOwnRaw, own_eq n, nodesOwn_eq r]; simp
end

mutual
theorem ownRaw_sub : ∀ n : Node, n.ownRaw.Sublist n.lines
  | .line l => List.Sublist.refl _
  | .region a b z => by
    rw [Node.ownRaw, Node.lines]
    exact ((nodesOwnRaw_sub b).cons_cons a).append (List.Sublist.refl _)
  | .area a b z => by
    rw [Node.ownRaw, Node.lines]
    exact (List.sublist_append_right _ _).cons_cons a
theorem nodesOwnRaw_sub : ∀ m : List Node, (nodesOwnRaw m).Sublist (nodesLines m)
  | [] => List.Sublist.refl _
  | n :: r => by rw [nodesOwnRaw, nodesLines]; exact (ownRaw_sub n).append (nodesOwnRaw_sub r)
end

theorem own_proper (m : List Node) (h : Good (nodesLines m)) : Brace.lines (nodesOwn m).flatten = nodesOwn m := by
  have := proper_of_good (good_map _ (good_sublist (nodesOwnRaw_sub m) h))
  rw [← nodesOwn_eq] at this
  exact this

/-! ### names and places -/

theorem split_two (d : Char) (s : Text) (h : d ∈ s) : (split d s).dropLast ≠ [] := by
  cases hsp : split d s with
  | nil => exact absurd hsp (split_ne _ _)
  | cons x r =>
    cases r with
    | nil =>
      have hj := join_split d s
      rw [hsp] at hj
      simp only [join] at hj
      have := split_mem d s x (by rw [hsp]; simp)
      rw [hj] at this
      exact absurd h this
    | cons y r => simp

theorem rel_ne (e : Env) (key : Text) (h : Anywhere e key) :
    (if e.descent then ["..".toList, "..".toList] else ["..".toList]) ++
      (split '_' (e.name key)).dropLast.map (fun c => if c = [] then "..".toList else c) ≠ ["..".toList] := by
  intro hh
  have hl := congrArg List.length hh
  simp only [List.length_append, List.length_map, List.length_singleton] at hl
  rcases h with h | h
  · rw [h, if_pos rfl, List.length_cons, List.length_singleton] at hl; omega
  · have := split_two '_' _ h
    have := List.length_pos_iff.mpr this
    split at hl <;> simp only [List.length_cons, List.length_nil] at hl <;> omega

theorem parse_anywhere (e : Env) (key : Text) (c1 c2 : Dir) (h : Anywhere e key) : parse e key c1 = parse e key c2 := by
  unfold parse
  simp only
  rw [if_neg (rel_ne e key h), if_neg (rel_ne e key h)]

/-! ### the dictionary -/

theorem addTo_append (A B : Areas) (k l : Text) : addTo (A ++ B) k l = addTo A k l ++ addTo B k l := by simp [addTo]

theorem addTo_addTo (A : Areas) (k x y : Text) : addTo (addTo A k x) k y = addTo A k (x ++ y) := by
  unfold addTo
  rw [List.map_map]
  apply List.map_congr_left
  intro p _
  by_cases h : p.1 = k <;> simp [h]

theorem addTo_absent (A : Areas) (k x : Text) (h : k ∉ A.map (·.1)) : addTo A k x = A := by
  unfold addTo
  conv => rhs; rw [← List.map_id A]
  apply List.map_congr_left
  intro p hp
  rw [if_neg]
  · rfl
  · rintro rfl; exact h (List.mem_map_of_mem hp)

theorem addTo_nil (A : Areas) (k : Text) : addTo A k [] = A := by
  unfold addTo
  conv => rhs; rw [← List.map_id A]
  apply List.map_congr_left
  intro p _
  split <;> simp

theorem addTo_keys (A : Areas) (k x : Text) : (addTo A k x).map (·.1) = A.map (·.1) := by
  unfold addTo
  rw [List.map_map]
  apply List.map_congr_left
  intro p _
  simp only [Function.comp]
  split <;> simp_all

theorem setKey_absent (A : Areas) (k : Text) (a : Area) (h : k ∉ A.map (·.1)) : setKey A k a = A ++ [(k, a)] := by
  unfold setKey
  rw [if_neg]
  intro hh
  rw [List.any_eq_true] at hh
  obtain ⟨p, hp, he⟩ := hh
  apply h
  have : p.1 = k := by simpa using he
  rw [← this]
  exact List.mem_map_of_mem hp

/-- the areas of a module as dictionary entries -/
def entries (m : List Node) : Areas := (nodesAreas m).map (fun p => (p.1, ⟨p.2.1, p.2.2.flatten⟩))
def entries1 (n : Node) : Areas := n.areas.map (fun p => (p.1, ⟨p.2.1, p.2.2.flatten⟩))

theorem entries1_keys (n : Node) : (entries1 n).map (·.1) = n.areas.map (·.1) := by
  unfold entries1; rw [List.map_map]; rfl

theorem entries_keys (m : List Node) : (entries m).map (·.1) = (nodesAreas m).map (·.1) := by
  unfold entries; rw [List.map_map]; rfl

theorem uSteps_append (s : UState) (a b : List Text) :
    uSteps s (a ++ b) = match uSteps s a with
      | none => none
      | some s => uSteps s b := by
  induction a generalizing s with
  | nil => rfl
  | cons l a ih =>
    rw [List.cons_append, uSteps, uSteps]
    cases uStep s l with
    | none => rfl
    | some s => exact ih s

mutual
theorem unpack_node (ok) (n : Node) (nested d) (h : WF ok nested d n) (A : Areas) (p : List Text) (k : Text) (ks : List Text)
    (hk : k ∈ A.map (·.1)) (hnd : (A.map (·.1) ++ n.areas.map (·.1)).Nodup) :
    uSteps ⟨A, p, k :: ks⟩ n.lines = some ⟨addTo A k n.own.flatten ++ entries1 n, p, k :: ks⟩ := by
  match n with
  | .line l =>
    rw [WF] at h
    simp [Node.lines, uSteps, uStep, h.1, Node.own, entries1, Node.areas]
  | .region a b z =>
    rw [WF] at h
    obtain ⟨h1, h2, _, _, h5⟩ := h
    rw [Node.areas] at hnd
    have ih := unpack_nodes ok b nested d h5 (addTo A k (dynStrip a)) ([] :: p) k ks (by rw [addTo_keys]; exact hk)
      (by rw [addTo_keys]; exact hnd)
    rw [Node.lines, List.cons_append, uSteps]
    simp only [uStep, h1]
    rw [uSteps_append, ih]
    have hkb : k ∉ (entries b).map (·.1) := by
      rw [entries_keys]
      rw [List.nodup_append] at hnd
      intro hc
      exact hnd.2.2 k hk k hc rfl
    simp only [uSteps, uStep, h2, ne_eq, not_true_eq_false, if_false]
    have e0 : entries1 (.region a b z) = entries b := by simp only [entries1, entries, Node.areas]
    rw [e0]
    simp only [addTo_append, addTo_absent _ _ _ hkb, addTo_addTo, Node.own, List.flatten_cons,
      List.flatten_append, List.cons_append, List.append_assoc, List.flatten_nil, List.append_nil]
  | .area a b z =>
    rw [WF] at h
    obtain ⟨h1, _, _, typ, key, d', h4, h5, _, h6⟩ := h
    have hareas : (Node.area a b z).areas = (key, typ, nodesOwn b) :: nodesAreas b := by
      rw [Node.areas, h4]
    rw [hareas] at hnd
    rw [List.nodup_append] at hnd
    obtain ⟨hn1, hn2, hn3⟩ := hnd
    rw [List.map_cons, List.nodup_cons] at hn2
    have hkey : key ∉ A.map (·.1) := fun hc => hn3 key hc key (by simp) rfl
    have hne : k ≠ key := fun hc => hkey (hc ▸ hk)
    have ih := unpack_nodes ok b true (d'.or d) h6 (addTo A k (dynStrip a) ++ [(key, ⟨typ, []⟩)]) (key :: p) key (k :: ks)
      (by simp)
      (by
        rw [List.map_append, addTo_keys, List.append_assoc, List.nodup_append]
        refine ⟨hn1, ?_, ?_⟩
        · simp only [List.map_cons, List.map_nil, List.singleton_append, List.nodup_cons]; exact hn2
        · intro x hx y hy
          exact hn3 x hx y (by simpa using hy))
    rw [Node.lines, List.cons_append, uSteps]
    simp only [uStep, h4]
    rw [setKey_absent _ _ _ (by rw [addTo_keys]; exact hkey), uSteps_append, ih]
    simp only [uSteps, uStep, h1, ne_eq, h5, not_false_eq_true, if_true]
    have hkA : key ∉ (addTo A k (dynStrip a)).map (·.1) := by rw [addTo_keys]; exact hkey
    have hkb : k ∉ (entries b).map (·.1) := by
      rw [entries_keys]
      intro hc
      exact hn3 k hk k (List.mem_cons_of_mem _ hc) rfl
    have e1 : addTo [(key, ⟨typ, []⟩)] key (nodesOwn b).flatten = [(key, ⟨typ, (nodesOwn b).flatten⟩)] := by simp [addTo]
    have e2 : addTo [(key, (⟨typ, (nodesOwn b).flatten⟩ : Area))] k (dynStrip z) = [(key, ⟨typ, (nodesOwn b).flatten⟩)] := by
      simp [addTo, Ne.symm hne]
    have e0 : entries1 (.area a b z) = (key, ⟨typ, (nodesOwn b).flatten⟩) :: entries b := by simp only [entries1, entries, hareas, List.map_cons]
    rw [e0]
    rw [addTo_append _ _ key, addTo_absent _ _ _ hkA, e1, addTo_append, addTo_append, addTo_absent _ _ _ hkb, e2, addTo_addTo]
    simp [Node.own]
theorem unpack_nodes (ok) (m : List Node) (nested d) (h : WFs ok nested d m) (A : Areas) (p : List Text) (k : Text) (ks : List Text)
    (hk : k ∈ A.map (·.1)) (hnd : (A.map (·.1) ++ (nodesAreas m).map (·.1)).Nodup) :
    uSteps ⟨A, p, k :: ks⟩ (nodesLines m) = some ⟨addTo A k (nodesOwn m).flatten ++ entries m, p, k :: ks⟩ := by
  match m with
  | [] => simp [nodesLines, uSteps, nodesOwn, entries, nodesAreas, addTo_nil]
  | n :: r =>
    rw [WFs] at h
    rw [nodesAreas, List.map_append, ← List.append_assoc] at hnd
    have hnd1 := (List.nodup_append.mp hnd).1
    have ih1 := unpack_node ok n nested d h.1 A p k ks hk hnd1
    have ih2 := unpack_nodes ok r nested d h.2 (addTo A k n.own.flatten ++ entries1 n) p k ks
      (by rw [List.map_append, addTo_keys]; simp [hk])
      (by rw [List.map_append, addTo_keys, entries1_keys]; exact hnd)
    rw [nodesLines, uSteps_append, ih1]
    simp only
    rw [ih2]
    have hkb : k ∉ (entries1 n).map (·.1) := by
      rw [List.nodup_append] at hnd1
      intro hc
      exact hnd1.2.2 k hk k (by rwa [entries1_keys] at hc) rfl
    have e0 : entries (n :: r) = entries1 n ++ entries r := by simp only [entries1, entries, nodesAreas, List.map_append]
    rw [e0]
    simp [addTo_append, addTo_absent _ _ _ hkb, addTo_addTo, nodesOwn]
end

theorem unpack_module (ok) (m : List Node) (h : WFs ok false none m) (hp : ProperLines (nodesLines m))
    (hn : ("root".toList :: (nodesAreas m).map (·.1)).Nodup) :
    unpack (text m) = some (("root".toList, ⟨.incl, (nodesOwn m).flatten⟩) :: entries m) := by
  unfold unpack text
  rw [hp, uInit, unpack_nodes ok m false none h _ _ _ _ (by simp) (by simpa using hn)]
  simp [addTo]

/-! ### inlining -/

/-- what inlining needs to find in the file system: the files of all areas -/
def Stored (e : Env) (modDir : Dir) (fs : FS) (l : List (Text × AreaType × List Text)) : Prop :=
  ∀ p ∈ l, fs (parse e p.1 modDir) = some p.2.2.flatten

theorem packLines_append (e rec cur d) (a b : List Text) (x y : Text) (ha : packLines e rec cur d a = some x)
    (hb : packLines e rec cur d b = some y) : packLines e rec cur d (a ++ b) = some (x ++ y) := by
  induction a generalizing x with
  | nil => simp only [packLines, Option.some.injEq] at ha; subst ha; exact hb
  | cons l a ih =>
    rw [List.cons_append, packLines]
    rw [packLines] at ha
    cases hi : included l with
    | none =>
      rw [hi] at ha
      simp only at ha ⊢
      cases hp : packLines e rec cur d a with
      | none => rw [hp] at ha; cases ha
      | some x' =>
        rw [hp] at ha
        simp only [Option.map_some, Option.some.injEq] at ha
        rw [ih x' hp, Option.map_some, ← ha]
        simp
    | some kd =>
      rw [hi] at ha
      obtain ⟨key, d'⟩ := kd
      simp only at ha ⊢
      cases hr : rec (parse e key cur) (d'.or d) with
      | none => rw [hr] at ha; cases ha
      | some body =>
        rw [hr] at ha
        simp only at ha ⊢
        cases hp : packLines e rec cur d a with
        | none => rw [hp] at ha; cases ha
        | some x' =>
          rw [hp] at ha
          simp only [Option.map_some, Option.some.injEq] at ha
          rw [ih x' hp, Option.map_some, ← ha]
          simp

theorem packLines_single (e rec cur d) (l l' : Text) (hi : included l = none) (hr : dynRestore d l = l') :
    packLines e rec cur d [l] = some l' := by
  rw [packLines, hi]
  simp [packLines, hr]

mutual
def Node.depth : Node → Nat
  | .line _ => 0
  | .region _ b _ => nodesDepth b
  | .area _ b _ => nodesDepth b + 1
def nodesDepth : List Node → Nat
  | [] => 0
  | n :: r => max n.depth (nodesDepth r)
end

theorem kind_inc (l : Text) (h : kind l = .region ∨ kind l = .close) : included l = none := by
  rw [included_of_kind]
  rcases h with h | h <;> rw [h]

mutual
theorem pack_node (e : Env) (modDir : Dir) (rf : Dir × Text) (fs : FS) (n : Node) (nested d) 
    (h : WF (NameOK e modDir rf) nested d n) (cur : Dir) (hcur : nested = false → cur = rf.1)
    (hg : Good n.lines) (hs : Stored e modDir fs n.areas) (N : Nat) (hN : n.depth ≤ N) :
    packLines e (packFile e fs N) cur d n.own = some n.lines.flatten := by
  match n with
  | .line l =>
    rw [WF] at h
    obtain ⟨h1, h2⟩ := line_back d l h.1 h.2
    rw [Node.own, packLines_single _ _ _ _ _ _ h1 h2, Node.lines]
    simp
  | .region a b z =>
    rw [WF] at h
    obtain ⟨h1, h2, h3, h4, h5⟩ := h
    rw [Node.lines] at hg
    have hgb : Good (nodesLines b) :=
      good_sublist (((List.sublist_append_left _ _).trans (List.sublist_cons_self _ _))) hg
    have ih := pack_nodes e modDir rf fs b nested d h5 cur hcur hgb hs N hN
    have ea := packLines_single e (packFile e fs N) cur d a a (kind_inc a (.inl h1)) (dynRestore_id d a h3)
    have ez := packLines_single e (packFile e fs N) cur d z z (kind_inc z (.inr h2)) (dynRestore_id d z h4)
    rw [Node.own, dynStrip_id a h3, dynStrip_id z h4, Node.lines]
    have := packLines_append _ _ _ _ _ _ _ _ ea (packLines_append _ _ _ _ _ _ _ _ ih ez)
    simpa using this
  | .area a b z =>
    rw [WF] at h
    obtain ⟨h1, h2, h3, typ, key, d', h4, h5, hok, h6⟩ := h
    have hareas : (Node.area a b z).areas = (key, typ, nodesOwn b) :: nodesAreas b := by
      rw [Node.areas, h4]
    rw [hareas] at hs
    rw [Node.lines] at hg
    have hgb : Good (nodesLines b) :=
      good_sublist (((List.sublist_append_left _ _).trans (List.sublist_cons_self _ _))) hg
    rw [Node.depth] at hN
    obtain ⟨N', rfl⟩ : ∃ N', N = N' + 1 := ⟨N - 1, by omega⟩
    have hplace : parse e key cur = parse e key modDir := by
      rcases hok with hok | ⟨hok1, hok2⟩
      · exact parse_anywhere e key _ _ hok
      · rw [hcur hok1, hok2]
    have ih := pack_nodes e modDir rf fs b true (d'.or d) h6 (parse e key modDir).1 (by simp) hgb
      (fun p hp => hs p (List.mem_cons_of_mem _ hp)) N' (by omega)
    have hbody : packFile e fs (N' + 1) (parse e key cur) (d'.or d) = some (nodesLines b).flatten := by
      rw [hplace, packFile, hs (key, typ, nodesOwn b) (by simp)]
      simp only
      rw [own_proper b hgb]
      exact ih
    have hia : included a = some (key, d') := by rw [included_of_kind, h4]
    rw [Node.own, dynStrip_id a h2, dynStrip_id z h3, Node.lines, packLines, hia]
    simp only
    rw [hbody]
    simp only
    rw [packLines_single e (packFile e fs (N' + 1)) cur d z z (kind_inc z (.inr h1)) (dynRestore_id d z h3), dynRestore_id d a h2]
    simp
theorem pack_nodes (e : Env) (modDir : Dir) (rf : Dir × Text) (fs : FS) (m : List Node) (nested d) 
    (h : WFs (NameOK e modDir rf) nested d m) (cur : Dir) (hcur : nested = false → cur = rf.1)
    (hg : Good (nodesLines m)) (hs : Stored e modDir fs (nodesAreas m)) (N : Nat) (hN : nodesDepth m ≤ N) :
    packLines e (packFile e fs N) cur d (nodesOwn m) = some (nodesLines m).flatten := by
  match m with
  | [] => rfl
  | n :: r =>
    rw [WFs] at h
    rw [nodesLines] at hg
    rw [nodesAreas] at hs
    rw [nodesDepth] at hN
    have ih1 := pack_node e modDir rf fs n nested d h.1 cur hcur (good_sublist (List.sublist_append_left _ _) hg)
      (fun p hp => hs p (List.mem_append_left _ hp)) N (by omega)
    have ih2 := pack_nodes e modDir rf fs r nested d h.2 cur hcur (good_sublist (List.sublist_append_right _ _) hg)
      (fun p hp => hs p (List.mem_append_right _ hp)) N (by omega)
    rw [nodesOwn, nodesLines, packLines_append _ _ _ _ _ _ _ _ ih1 ih2]
    simp
end

/-! ### writing -/

theorem write_other (fs : FS) (f g : Dir × Text) (t : Text) (h : g ≠ f) : fs.write f t g = fs g := by
  simp [FS.write, h]

theorem writeAreas_cons (e modDir rf fs p A) :
    writeAreas e modDir rf fs (p :: A) = writeAreas e modDir rf
      (if p.1 = "root".toList then fs.write rf p.2.data else if p.2.typ = .incr then fs else fs.write (parse e p.1 modDir) p.2.data) A := rfl

theorem writeAreas_keep (e modDir rf) (l : List (Text × AreaType × List Text)) (hroot : "root".toList ∉ l.map (·.1)) (g : Dir × Text)
    (hg : g ∉ (l.filter (fun p => p.2.1 = .incl)).map (fun p => parse e p.1 modDir)) (fs : FS) :
    writeAreas e modDir rf fs (l.map (fun p => (p.1, ⟨p.2.1, p.2.2.flatten⟩))) g = fs g := by
  induction l generalizing fs with
  | nil => rfl
  | cons p l ih =>
    simp only [List.map_cons, List.mem_cons, not_or] at hroot
    rw [List.map_cons, writeAreas_cons]
    simp only [Ne.symm hroot.1, if_false]
    by_cases ht : p.2.1 = .incl
    · rw [List.filter_cons_of_pos (by simpa using ht)] at hg
      simp only [List.map_cons, List.mem_cons, not_or] at hg
      rw [ih hroot.2 hg.2]
      simp [ht, write_other _ _ _ _ hg.1]
    · rw [List.filter_cons_of_neg (by simpa using ht)] at hg
      have : p.2.1 = .incr := by cases h : p.2.1 <;> simp_all
      rw [ih hroot.2 hg]
      simp [this]

theorem writeAreas_get (e modDir rf) (l : List (Text × AreaType × List Text)) (hroot : "root".toList ∉ l.map (·.1))
    (hnd : ((l.filter (fun p => p.2.1 = .incl)).map (fun p => parse e p.1 modDir)).Nodup) (p) (hp : p ∈ l) (ht : p.2.1 = .incl) (fs : FS) :
    writeAreas e modDir rf fs (l.map (fun p => (p.1, ⟨p.2.1, p.2.2.flatten⟩))) (parse e p.1 modDir) = some p.2.2.flatten := by
  induction l generalizing fs with
  | nil => cases hp
  | cons q l ih =>
    simp only [List.map_cons, List.mem_cons, not_or] at hroot
    rw [List.map_cons, writeAreas_cons]
    simp only [Ne.symm hroot.1, if_false]
    rcases List.mem_cons.mp hp with rfl | hp
    · rw [List.filter_cons_of_pos (by simpa using ht), List.map_cons, List.nodup_cons] at hnd
      rw [writeAreas_keep e modDir rf l hroot.2 _ hnd.1]
      simp [ht, FS.write]
    · apply ih hroot.2 _ hp
      rw [List.filter_cons] at hnd
      split at hnd
      · rw [List.map_cons, List.nodup_cons] at hnd; exact hnd.2
      · exact hnd

end V8.Code
