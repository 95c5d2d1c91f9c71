import Verif.Embed
/-
Property theorems C52 about the model Verif/Embed.lean (files embedded as base64 text).
-/
namespace V8.Embed
open V8.Brace V8.B64

/-! ### trees -/

theorem getP_setP : ∀ (p : List Nat) (v w x : Val), getP p v = some w → getP p (setP p x v) = some x
  | [], v, w, x, _ => rfl
  | i :: p, .none, w, x, h => by cases h
  | i :: p, .str _, w, x, h => by cases h
  | i :: p, .list l, w, x, h => by
    rw [getP] at h
    cases hl : l[i]? with
    | none => rw [hl] at h; cases h
    | some u =>
      rw [hl] at h
      have hi : i < l.length := by rw [List.getElem?_eq_some_iff] at hl; exact hl.1
      rw [setP, hl]
      simp only
      rw [getP, List.getElem?_set_self hi]
      exact getP_setP p u w x h

theorem setP_setP : ∀ (p : List Nat) (v w x y : Val), getP p v = some w → setP p x (setP p y v) = setP p x v
  | [], v, w, x, y, _ => rfl
  | i :: p, .none, w, x, y, h => by cases h
  | i :: p, .str _, w, x, y, h => by cases h
  | i :: p, .list l, w, x, y, h => by
    rw [getP] at h
    cases hl : l[i]? with
    | none => rw [hl] at h; cases h
    | some u =>
      rw [hl] at h
      have hi : i < l.length := by rw [List.getElem?_eq_some_iff] at hl; exact hl.1
      rw [setP, hl]
      simp only
      rw [setP, List.getElem?_set_self hi, setP, hl]
      simp only
      rw [setP_setP p u w x y h, List.set_set]

theorem setP_getP : ∀ (p : List Nat) (v w : Val), getP p v = some w → setP p w v = v
  | [], v, w, h => by cases h; rfl
  | i :: p, .none, w, h => by cases h
  | i :: p, .str _, w, h => by cases h
  | i :: p, .list l, w, h => by
    rw [getP] at h
    cases hl : l[i]? with
    | none => rw [hl] at h; cases h
    | some u =>
      rw [hl] at h
      obtain ⟨hi, rfl⟩ := List.getElem?_eq_some_iff.mp hl
      rw [setP, hl]
      simp only
      rw [setP_getP p _ w h, List.set_getElem_self hi]

theorem getP_append : ∀ (p q : List Nat) (v w : Val), getP p v = some w → getP (p ++ q) v = getP q w
  | [], q, v, w, h => by cases h; rfl
  | i :: p, q, .none, w, h => by cases h
  | i :: p, q, .str _, w, h => by cases h
  | i :: p, q, .list l, w, h => by
    rw [getP] at h
    rw [List.cons_append, getP]
    cases hl : l[i]? with
    | none => rw [hl] at h; cases h
    | some u =>
      rw [hl] at h
      exact getP_append p q u w h

theorem walk_some : ∀ (p : List Nat) (v w : Val), walk p v = .ok (some w) → getP p v = some w ∧ truthy w = true
  | [], v, w, h => by
    rw [walk] at h
    by_cases ht : truthy v = true
    · rw [if_pos ht] at h; cases h; exact ⟨rfl, ht⟩
    · rw [if_neg ht] at h; cases h
  | i :: p, v, w, h => by
    rw [walk.eq_def] at h
    simp only at h
    by_cases ht : truthy v = true
    · rw [if_pos ht] at h
      cases v with
      | none => cases h
      | str _ => cases h
      | list l =>
        simp only at h
        rw [getP]
        cases hl : l[i]? with
        | none => rw [hl] at h; cases h
        | some u => rw [hl] at h; exact walk_some p u w h
    · rw [if_neg ht] at h; cases h

/-! ### one text -/

/-- the text is a marker and base64 in its usual form -/
def Canonical (t : Text) : Prop := ∃ b, t = "##base64:".toList ++ encode b ∨ t = "#base64:".toList ++ encode b ∨ t = "#data:".toList ++ encode b

theorem extract_pre2 (b : Bytes) : extractTok (pre2 ++ encode b) = some (b, pre2) := by
  have h : pre2.isPrefixOf (pre2 ++ encode b) = true := by rw [List.isPrefixOf_iff_prefix]; exact ⟨_, rfl⟩
  have h9 : (pre2 ++ encode b).drop 9 = encode b := List.drop_left' (by decide)
  rw [extractTok, if_pos h, h9, decode_encode]; rfl

theorem extract_pre1 (b : Bytes) : extractTok (pre1 ++ encode b) = some (b, pre1) := by
  have h0 : ¬ pre2.isPrefixOf (pre1 ++ encode b) = true := by
    show ¬ ("##base64:".toList).isPrefixOf ("#base64:".toList ++ encode b) = true
    rw [List.isPrefixOf_iff_prefix]
    rintro ⟨t, ht⟩
    have := congrArg (fun l => l[1]?) ht
    revert this
    exact (by decide : ¬ (some '#' = some 'b'))
  have h : pre1.isPrefixOf (pre1 ++ encode b) = true := by rw [List.isPrefixOf_iff_prefix]; exact ⟨_, rfl⟩
  have h9 : (pre1 ++ encode b).drop 8 = encode b := List.drop_left' (by decide)
  rw [extractTok, if_neg h0, if_pos h, h9, decode_encode]; rfl

theorem extract_preD (b : Bytes) : extractTok (preD ++ encode b) = some (b, preD) := by
  have h0 : ¬ pre2.isPrefixOf (preD ++ encode b) = true := by
    show ¬ ("##base64:".toList).isPrefixOf ("#data:".toList ++ encode b) = true
    rw [List.isPrefixOf_iff_prefix]
    rintro ⟨t, ht⟩
    have := congrArg (fun l => l[1]?) ht
    revert this
    exact (by decide : ¬ (some '#' = some 'd'))
  have h1 : ¬ pre1.isPrefixOf (preD ++ encode b) = true := by
    show ¬ ("#base64:".toList).isPrefixOf ("#data:".toList ++ encode b) = true
    rw [List.isPrefixOf_iff_prefix]
    rintro ⟨t, ht⟩
    have := congrArg (fun l => l[1]?) ht
    revert this
    exact (by decide : ¬ (some 'b' = some 'd'))
  have h : preD.isPrefixOf (preD ++ encode b) = true := by rw [List.isPrefixOf_iff_prefix]; exact ⟨_, rfl⟩
  have h9 : (preD ++ encode b).drop 6 = encode b := List.drop_left' (by decide)
  rw [extractTok, if_neg h0, if_neg h1, if_pos h, h9, decode_encode]; rfl

/-- **C52, base64.**  Decoding what was encoded gives the same bytes, for all data. -/
theorem C52_base64 (b : Bytes) : decode (encode b) = some b := decode_encode b

theorem extract_rest {t rest : Text} {b : Bytes} (h : extractTok t = some (b, rest)) : rest = pre2 ∨ rest = pre1 ∨ rest = preD := by
  rw [extractTok] at h
  by_cases h2 : pre2.isPrefixOf t = true
  · rw [if_pos h2, Option.map_eq_some_iff] at h
    obtain ⟨_, _, he⟩ := h
    cases he; exact .inl rfl
  · rw [if_neg h2] at h
    by_cases h1 : pre1.isPrefixOf t = true
    · rw [if_pos h1, Option.map_eq_some_iff] at h
      obtain ⟨_, _, he⟩ := h
      cases he; exact .inr (.inl rfl)
    · rw [if_neg h1] at h
      by_cases hd : preD.isPrefixOf t = true
      · rw [if_pos hd, Option.map_eq_some_iff] at h
        obtain ⟨_, _, he⟩ := h
        cases he; exact .inr (.inr rfl)
      · rw [if_neg hd] at h; cases h

/-- **C52, one text.**  A text taken apart and put together again is the same if and only if it is a marker followed by base64 in its usual form. -/
theorem C52_token_iff (t rest : Text) (b : Bytes) (h : extractTok t = some (b, rest)) : buildTok rest b = t ↔ Canonical t := by
  rw [buildTok]
  constructor
  · intro he
    rcases extract_rest h with rfl | rfl | rfl
    · exact ⟨b, .inl he.symm⟩
    · exact ⟨b, .inr (.inl he.symm)⟩
    · exact ⟨b, .inr (.inr he.symm)⟩
  · rintro ⟨b', h1 | h1 | h1⟩
    · subst h1
      have h2 := extract_pre2 b'
      rw [show pre2 = "##base64:".toList from rfl] at h2
      rw [h2] at h; cases h; rfl
    · subst h1
      have h2 := extract_pre1 b'
      rw [show pre1 = "#base64:".toList from rfl] at h2
      rw [h2] at h; cases h; rfl
    · subst h1
      have h2 := extract_preD b'
      rw [show preD = "#data:".toList from rfl] at h2
      rw [h2] at h; cases h; rfl

/-- the data put back into the tree -/
theorem putBack_takeOut {path : List Nat} {v v' tok : Val} {b : Bytes} (hg : getP path v = some tok) (h : takeOut path v tok = some (b, v')) :
    ∃ t rest, tok = .str t ∧ extractTok t = some (b, rest) ∧ v' = setP path (.str rest) v ∧
      putBack path b v' = some (setP path (.str (buildTok rest b)) v) := by
  cases tok with
  | none => cases h
  | list _ => cases h
  | str t =>
    rw [takeOut, Option.map_eq_some_iff] at h
    obtain ⟨⟨b', rest⟩, h1, h2⟩ := h
    cases h2
    refine ⟨t, rest, rfl, h1, rfl, ?_⟩
    rw [putBack, getP_setP path v _ _ hg]
    simp only
    rw [setP_setP path v _ _ _ hg]

theorem putBack_canonical {path : List Nat} {v v' tok : Val} {b : Bytes} (hg : getP path v = some tok) (h : takeOut path v tok = some (b, v'))
    (hc : ∀ t, tok = .str t → Canonical t) : putBack path b v' = some v := by
  obtain ⟨t, rest, rfl, h1, _, h3⟩ := putBack_takeOut hg h
  rw [h3, (C52_token_iff t rest b h1).mpr (hc t rfl), setP_getP path v _ hg]

/-! ### help pages -/

/-- every non-empty text at the place is base64 in its usual form -/
def CanonicalAt (path : List Nat) (v : Val) : Prop := ∀ t, getP path v = some (.str t) → t = [] ∨ Canonical t

theorem truthy_str {t : Text} (h : truthy (.str t) = true) : t ≠ [] := by simpa [truthy] using h

theorem truthy_setP (i : Nat) (p : List Nat) (x v : Val) (h : truthy v = true) : truthy (setP (i :: p) x v) = true := by
  cases v with
  | none => cases h
  | str _ => exact h
  | list l =>
    rw [setP]
    cases hl : l[i]? with
    | none => exact h
    | some u =>
      simp only [truthy, decide_eq_true_eq, ne_eq] at h ⊢
      intro he
      apply h
      have := congrArg List.length he
      simpa using this

theorem longer_of (n : Nat) (p : List Nat) (v w x : Val) (h : getP (0 :: (n + 1) :: p) v = some w) :
    longer n (setP (0 :: (n + 1) :: p) x v) = true := by
  cases v with
  | none => cases h
  | str _ => cases h
  | list l =>
    rw [getP] at h
    cases hl : l[0]? with
    | none => rw [hl] at h; cases h
    | some u =>
      rw [hl] at h
      have hi : 0 < l.length := by rw [List.getElem?_eq_some_iff] at hl; exact hl.1
      cases u with
      | none => cases h
      | str _ => cases h
      | list m =>
        simp only [getP] at h
        cases hm : m[n + 1]? with
        | none => rw [hm] at h; cases h
        | some y =>
          have hj : n + 1 < m.length := by rw [List.getElem?_eq_some_iff] at hm; exact hm.1
          rw [longer, setP, hl]
          simp only
          rw [setP, hm]
          simp only
          rw [getP, List.getElem?_set_self hi]
          simp only [getP, List.length_set]
          exact decide_eq_true (by omega)

/-- **C52, large page.**  A page of more than a million bytes comes back byte for byte. -/
theorem C52_html_large (parse : Bytes → Option Val) (ser : Val → Bytes) (raw : Bytes) (h : 1000000 < raw.length) :
    ∃ src, htmlOut parse (some raw) = some src ∧ htmlIn ser src = some (some raw) :=
  ⟨⟨none, some raw, none⟩, by rw [htmlOut]; simp [h], rfl⟩

/-- no page, no page -/
theorem C52_html_absent (parse : Bytes → Option Val) (ser : Val → Bytes) :
    ∃ src, htmlOut parse none = some src ∧ htmlIn ser src = some none := ⟨⟨none, none, none⟩, rfl, rfl⟩

/-- **C52, page, partial.**  Any other page that extraction accepts comes back as the serialisation of the tree it was parsed to, if its text is base64 in
its usual form and the tree is not empty.  Missing: other base64 texts (their bytes come back, not their spelling: C52_token_iff), and empty
trees (C52_html_empty_lost). -/
theorem C52_html_partial (parse : Bytes → Option Val) (ser : Val → Bytes) (raw : Bytes) (v : Val) (src : Html)
    (h : htmlOut parse (some raw) = some src) (hs : raw.length ≤ 1000000) (hp : parse raw = some v) (ht : truthy v = true)
    (hc : CanonicalAt [0, 3, 0] v) : htmlIn ser src = some (some (ser v)) := by
  rw [htmlOut] at h
  simp only [show ¬ 1000000 < raw.length by omega, if_false, hp] at h
  have hnone : htmlIn ser ⟨none, none, some v⟩ = some (some (ser v)) := by
    rw [htmlIn]
    simp [ht]
  cases hw : getP [0, 3] v with
  | none => rw [hw] at h; cases h; exact hnone
  | some w =>
    rw [hw] at h
    simp only at h
    cases hk : walk [0] w with
    | error e => rw [hk] at h; cases h
    | ok o =>
      rw [hk] at h
      cases o with
      | none => cases h; exact hnone
      | some t =>
        simp only [Option.map_eq_some_iff] at h
        obtain ⟨⟨b, v'⟩, h1, h2⟩ := h
        cases h2
        obtain ⟨h3, h4⟩ := walk_some _ _ _ hk
        have hg : getP [0, 3, 0] v = some t := by
          have := getP_append [0, 3] [0] v w hw
          rw [h3] at this; exact this
        have hcan : ∀ s, t = .str s → Canonical s := by
          rintro s rfl
          rcases hc s hg with he | he
          · exact absurd he (truthy_str h4)
          · exact he
        have hb := putBack_canonical hg h1 hcan
        obtain ⟨s, rest, rfl, e1, e2, e3⟩ := putBack_takeOut hg h1
        rw [htmlIn]
        have ht' : truthy v' = true := by rw [e2]; exact truthy_setP 0 _ _ _ ht
        have hl' : longer 2 v' = true := by rw [e2]; exact longer_of 2 [0] v _ _ hg
        simp only [ht', hl', true_and, Bool.true_eq_false, if_false]
        by_cases hbe : b = []
        · subst hbe
          simp only [ne_eq, not_true, if_false]
          have h5 : setP [0, 3, 0] (.str (buildTok rest [])) v = v := by
            rw [e3] at hb; exact Option.some.inj hb
          have h6 : buildTok rest [] = rest := by simp [buildTok, encode]
          rw [h6] at h5
          rw [e2, h5]
        · rw [if_pos hbe, hb]; rfl

/-- **C52 is false of the code for a page that parses to an empty tree** (an empty file): the file is not built. -/
theorem C52_html_empty_lost (parse : Bytes → Option Val) (ser : Val → Bytes) (raw : Bytes) (hs : raw.length ≤ 1000000)
    (hp : parse raw = some (.list [])) : ∃ src, htmlOut parse (some raw) = some src ∧ htmlIn ser src = some none := by
  refine ⟨⟨none, none, some (.list [])⟩, ?_, rfl⟩
  rw [htmlOut]
  simp only [show ¬ 1000000 < raw.length by omega, if_false, hp]
  rfl

/-! ### images -/

/-- **C52, splash screen, partial.**  Missing: as in C52_html_partial. -/
theorem C52_image_partial (parse : Bytes → Option Val) (ser : Val → Bytes) (raw : Bytes) (v : Val) (image : Option Bytes) (field : Option Val)
    (h : imageOut parse (some raw) = some (image, field)) (hp : parse raw = some v) (ht : truthy v = true)
    (hc : CanonicalAt [0, 2, 0, 0] v) : imageIn ser image field = some (some (ser v)) := by
  rw [imageOut] at h
  simp only [hp] at h
  have hnone : imageIn ser none (some v) = some (some (ser v)) := by rw [imageIn]; simp [ht]
  cases hw : getP [0, 2] v with
  | none => rw [hw] at h; cases h; exact hnone
  | some w =>
    rw [hw] at h
    simp only at h
    cases hk : walk [0, 0] w with
    | error e => rw [hk] at h; cases h
    | ok o =>
      rw [hk] at h
      cases o with
      | none => cases h; exact hnone
      | some t =>
        simp only [Option.map_eq_some_iff] at h
        obtain ⟨⟨b, v'⟩, h1, h2⟩ := h
        cases h2
        obtain ⟨h3, h4⟩ := walk_some _ _ _ hk
        have hg : getP [0, 2, 0, 0] v = some t := by
          have := getP_append [0, 2] [0, 0] v w hw
          rw [h3] at this; exact this
        have hcan : ∀ s, t = .str s → Canonical s := by
          rintro s rfl
          rcases hc s hg with he | he
          · exact absurd he (truthy_str h4)
          · exact he
        have hb := putBack_canonical hg h1 hcan
        obtain ⟨s, rest, rfl, e1, e2, e3⟩ := putBack_takeOut hg h1
        rw [imageIn]
        have ht' : truthy v' = true := by rw [e2]; exact truthy_setP 0 _ _ _ ht
        have hl' : longer 1 v' = true := by rw [e2]; exact longer_of 1 [0, 0] v _ _ hg
        simp only [ht', hl', true_and, Bool.true_eq_false, if_false]
        by_cases hbe : b = []
        · subst hbe
          simp only [ne_eq, not_true, if_false]
          have h5 : setP [0, 2, 0, 0] (.str (buildTok rest [])) v = v := by
            rw [e3] at hb; exact Option.some.inj hb
          have h6 : buildTok rest [] = rest := by simp [buildTok, encode]
          rw [h6] at h5
          rw [e2, h5]
        · rw [if_pos hbe, hb]; rfl

/-- **C52, common picture, partial.**  A common picture with image data comes back as the serialisation of the tree it was parsed to.  Missing: pictures
without data (C52_picture_lost), and as in C52_html_partial. -/
theorem C52_picture_partial (parse : Bytes → Option Val) (ser : Val → Bytes) (raw : Bytes) (v : Val) (b : Bytes) (field : Option Val)
    (h : pictureOut parse (some raw) = some (some b, field)) (hp : parse raw = some v)
    (hc : CanonicalAt [0, 2, 0, 0] v) : pictureIn ser (some b) field = some (some (ser v)) := by
  rw [pictureOut] at h
  simp only [hp] at h
  cases hw : getP [0, 2] v with
  | none => rw [hw] at h; cases h
  | some w =>
    rw [hw] at h
    simp only at h
    cases hk : walk [0, 0] w with
    | error e => rw [hk] at h; cases h
    | ok o =>
      rw [hk] at h
      cases o with
      | none => cases h
      | some t =>
        simp only [Option.map_eq_some_iff] at h
        obtain ⟨⟨b', v'⟩, h1, h2⟩ := h
        cases h2
        obtain ⟨h3, h4⟩ := walk_some _ _ _ hk
        have hg : getP [0, 2, 0, 0] v = some t := by
          have := getP_append [0, 2] [0, 0] v w hw
          rw [h3] at this; exact this
        have hcan : ∀ s, t = .str s → Canonical s := by
          rintro s rfl
          rcases hc s hg with he | he
          · exact absurd he (truthy_str h4)
          · exact he
        rw [pictureIn]
        simp only
        rw [putBack_canonical hg h1 hcan]
        rfl

/-- **C52 is false of the code for a common picture without image data**: whatever its stored file was, it is not built. -/
theorem C52_picture_lost (parse : Bytes → Option Val) (ser : Val → Bytes) (raw : Bytes) (v w : Val)
    (hp : parse raw = some v) (hw : getP [0, 2] v = some w) (hk : walk [0, 0] w = .ok none) :
    pictureOut parse (some raw) = some (none, some v) ∧ pictureIn ser none (some v) = some none := by
  refine ⟨?_, rfl⟩
  rw [pictureOut]
  simp [hp, hw, hk]

/-! ### binary templates -/

/-- **C52, template kept as it is.**  A template that is base64 text as a whole comes back byte for byte. -/
theorem C52_template_big (parse : Bytes → Parsed) (ser : Val → Bytes) (raw : Bytes) (h : parse raw = .big) :
    ∃ src, templateOut parse (some raw) = some src ∧ templateIn ser src = some raw :=
  ⟨⟨none, some raw⟩, by rw [templateOut]; simp [h], rfl⟩

/-- **C52, template, partial.**  A template `{1,{#base64:...}}` with data comes back.  Missing: see the following theorems. -/
theorem C52_template_partial (parse : Bytes → Parsed) (ser : Val → Bytes) (raw : Bytes) (b : Bytes) (hb : b ≠ [])
    (h : parse raw = .tree (.list [.list [.str "1".toList, .list [.str ("#base64:".toList ++ encode b)]]])) :
    ∃ src, templateOut parse (some raw) = some src ∧
      templateIn ser src = some (ser (.list [.list [.str "1".toList, .list [.str ("#base64:".toList ++ encode b)]]])) := by
  refine ⟨⟨some b, none⟩, ?_, ?_⟩
  · rw [templateOut]
    have h8 : ("#base64:".toList ++ encode b).drop 8 = encode b := List.drop_left' (by decide)
    have hw : walk [0] (.list [.str ("#base64:".toList ++ encode b)]) = .ok (some (.str ("#base64:".toList ++ encode b))) := by
      have ht : truthy (.str ("#base64:".toList ++ encode b)) = true := by
        rw [truthy]; exact decide_eq_true (by simp)
      rw [walk, if_pos (by simp [truthy])]
      simp only [List.getElem?_cons_zero]
      rw [walk, if_pos ht]
    simp only [h]
    show tmplTake (.list [.str ("#base64:".toList ++ encode b)]) = _
    rw [tmplTake, hw]
    simp only
    rw [h8, decode_encode]
    rfl
  · rw [templateIn]
    simp only [b64String, if_neg hb]
    rfl

/-- **C52, one-line template.**  A template whose base64 text stands on one line comes back with the same data, but with the marker of the
many-line layout: the stored text changes. -/
theorem C52_template_one_line (parse : Bytes → Parsed) (ser : Val → Bytes) (raw : Bytes) (b : Bytes) (hb : b ≠ [])
    (h : parse raw = .tree (.list [.list [.str "1".toList, .list [.str ("##base64:".toList ++ encode b)]]])) :
    ∃ src, templateOut parse (some raw) = some src ∧ src.data = some b ∧
      templateIn ser src = some (ser (.list [.list [.str "1".toList, .list [.str ("#base64:".toList ++ encode b)]]])) := by
  refine ⟨⟨some b, none⟩, ?_, rfl, ?_⟩
  · rw [templateOut]
    have h8 : ("##base64:".toList ++ encode b).drop 8 = ':' :: encode b := by
      have : "##base64:".toList ++ encode b = "##base64".toList ++ (':' :: encode b) := rfl
      rw [this]
      exact List.drop_left' (by decide)
    have hw : walk [0] (.list [.str ("##base64:".toList ++ encode b)]) = .ok (some (.str ("##base64:".toList ++ encode b))) := by
      have ht : truthy (.str ("##base64:".toList ++ encode b)) = true := by
        rw [truthy]; exact decide_eq_true (by simp)
      rw [walk, if_pos (by simp [truthy])]
      simp only [List.getElem?_cons_zero]
      rw [walk, if_pos ht]
    simp only [h]
    show tmplTake (.list [.str ("##base64:".toList ++ encode b)]) = _
    rw [tmplTake, hw]
    simp only
    rw [h8, decode_skip ':' b (by decide) (by decide) (by decide)]
    rfl
  · rw [templateIn]
    simp only [b64String, if_neg hb]
    rfl

/-- **C52 is false of the code for a template without data**: its stored file is not built. -/
theorem C52_template_lost (parse : Bytes → Parsed) (ser : Val → Bytes) (raw : Bytes) (v w : Val)
    (hp : parse raw = .tree v) (hw : getP [0, 1] v = some w) (hk : walk [0] w = .ok none) :
    ∃ src, templateOut parse (some raw) = some src ∧ templateIn ser src = none :=
  ⟨⟨none, none⟩, by rw [templateOut]; simp [hp, hw, hk, tmplTake], rfl⟩

/-! ### concrete cases -/

def sampleTree (t : String) : Val := .list [.list [.str ['4'], .list [.str ['0']], .list [.list [.str t.toList]]]]

example : encode [0x89, 0x50, 0x4E, 0x47, 0x0D] = "iVBORw0=".toList ∧
    pictureOut (fun _ => some (sampleTree "#base64:iVBORw0=")) (some [1]) = some (some [0x89, 0x50, 0x4E, 0x47, 0x0D], some (sampleTree "#base64:")) ∧
    imageOut (fun _ => some (sampleTree "#data:iVBORw0=")) (some [1]) = some (some [0x89, 0x50, 0x4E, 0x47, 0x0D], some (sampleTree "#data:")) ∧
    walk [0, 0] (.list [.list [.str []]]) = .ok none ∧ truthy (sampleTree "") = true ∧
    getP [0, 2] (sampleTree "") = some (.list [.list [.str []]]) := by decide +kernel

example : CanonicalAt [0, 2, 0, 0] (sampleTree "#base64:iVBORw0=") := by
  intro t ht
  right
  refine ⟨[0x89, 0x50, 0x4E, 0x47, 0x0D], .inr (.inl ?_)⟩
  have : getP [0, 2, 0, 0] (sampleTree "#base64:iVBORw0=") = some (.str "#base64:iVBORw0=".toList) := by decide +kernel
  rw [this] at ht
  cases ht
  decide +kernel

end V8.Embed
