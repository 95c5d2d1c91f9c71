import Verif.Product
import Verif.Props.Header
import Verif.BraceSpec
import Verif.BraceQuoted
/-
Property theorems C55, C56 about the model Verif/Product.lean (options of a build in the root object).
-/
namespace V8.Product
open V8.Module V8.Brace V8.Enc

/-! ### places -/

theorem getAt_setAt : ∀ (p : List Nat) (h h' w : Val), setAt h p w = some h' → getAt h' p = some w
  | [], h, h', w, hs => by simp [setAt] at hs; subst hs; rfl
  | i :: p, h, h', w, hs => by
    cases h with
    | list l =>
      rw [setAt] at hs
      cases hx : l[i]? with
      | none => rw [hx] at hs; cases hs
      | some x =>
        rw [hx] at hs
        simp only [Option.map_eq_some_iff] at hs
        obtain ⟨y, hy, rfl⟩ := hs
        have hi : i < l.length := (List.getElem?_eq_some_iff.mp hx).1
        rw [getAt, List.getElem?_set_self hi]
        exact getAt_setAt p x y w hy
    | _ => simp [setAt] at hs

theorem setAt_getAt : ∀ (p : List Nat) (h w : Val), getAt h p = some w → setAt h p w = some h
  | [], h, w, hg => by simp [getAt] at hg; subst hg; rfl
  | i :: p, h, w, hg => by
    cases h with
    | list l =>
      rw [getAt] at hg
      rw [setAt]
      cases hx : l[i]? with
      | none => rw [hx] at hg; cases hg
      | some x =>
        rw [hx] at hg
        simp only at hg
        simp only [setAt_getAt p x w hg, Option.map_some]
        obtain ⟨hi, rfl⟩ := List.getElem?_eq_some_iff.mp hx
        rw [List.set_getElem_self]
    | _ => simp [getAt] at hg

theorem setAt_some : ∀ (p : List Nat) (h x w : Val), getAt h p = some x → ∃ h', setAt h p w = some h'
  | [], h, x, w, _ => ⟨w, rfl⟩
  | i :: p, h, x, w, hg => by
    cases h with
    | list l =>
      rw [getAt] at hg
      cases hy : l[i]? with
      | none => rw [hy] at hg; cases hg
      | some y =>
        rw [hy] at hg
        obtain ⟨y', hy'⟩ := setAt_some p y x w hg
        refine ⟨.list (l.set i y'), ?_⟩
        rw [setAt, hy]
        simp only [hy', Option.map_some]
    | _ => simp [getAt] at hg

/-- an assignment leaves every other place as it is -/
theorem getAt_append : ∀ (p q : List Nat) (v : Val), getAt v (p ++ q) = (getAt v p).bind (fun w => getAt w q)
  | [], q, v => by
    cases v <;> rfl
  | i :: p, q, .none => rfl
  | i :: p, q, .str _ => rfl
  | i :: p, q, .list l => by
    rw [List.cons_append, getAt, getAt]
    cases l[i]? with
    | none => rfl
    | some x => exact getAt_append p q x

theorem getAt_frame : ∀ (p q : List Nat) (h h' w : Val), setAt h p w = some h' → ¬ p <+: q → ¬ q <+: p → getAt h' q = getAt h q
  | [], q, h, h', w, _, hpq, _ => absurd (List.nil_prefix) hpq
  | i :: p, [], h, h', w, _, _, hqp => absurd (List.nil_prefix) hqp
  | i :: p, j :: q, h, h', w, hs, hpq, hqp => by
    cases h with
    | list l =>
      rw [setAt] at hs
      cases hx : l[i]? with
      | none => rw [hx] at hs; cases hs
      | some x =>
        rw [hx] at hs
        simp only [Option.map_eq_some_iff] at hs
        obtain ⟨y, hy, rfl⟩ := hs
        have hi : i < l.length := (List.getElem?_eq_some_iff.mp hx).1
        rw [getAt, getAt]
        by_cases hij : i = j
        · subst hij
          rw [List.getElem?_set_self hi, hx]
          exact getAt_frame p q x y w hy (fun h => hpq (List.cons_prefix_cons.mpr ⟨rfl, h⟩))
            (fun h => hqp (List.cons_prefix_cons.mpr ⟨rfl, h⟩))
        · rw [List.getElem?_set_ne hij]
    | _ => simp [setAt] at hs

theorem setAt_setAt : ∀ (p : List Nat) (h h' v w : Val), setAt h p v = some h' → setAt h' p w = setAt h p w
  | [], h, h', v, w, _ => rfl
  | i :: p, h, h', v, w, hs => by
    cases h with
    | list l =>
      rw [setAt] at hs
      cases hx : l[i]? with
      | none => rw [hx] at hs; cases hs
      | some x =>
        rw [hx] at hs
        simp only [Option.map_eq_some_iff] at hs
        obtain ⟨y, hy, rfl⟩ := hs
        have hi : i < l.length := (List.getElem?_eq_some_iff.mp hx).1
        rw [setAt, setAt, List.getElem?_set_self hi, hx]
        simp only [setAt_setAt p x y v w hy, List.set_set]
    | _ => simp [setAt] at hs

/-! ### the mark -/

/-- the first place of `ver:` in a comment is behind `a` -/
def FirstMark (a c : Text) : Prop := (∃ b, c = a ++ mark ++ b) ∧ ¬ mark <:+: a ++ ['v', 'e', 'r']

theorem starts_mark (t : Text) : Str.starts mark t = true ↔ ∃ b, t = mark ++ b := by
  unfold Str.starts
  rw [List.isPrefixOf_iff_prefix]
  exact ⟨fun ⟨b, h⟩ => ⟨b, h.symm⟩, fun ⟨b, h⟩ => ⟨b, h.symm⟩⟩

theorem breakOn_none (c : Text) (h : ¬ mark <:+: c) : Str.breakOn mark c = (c, none) := by
  induction c with
  | nil => rfl
  | cons x t ih =>
    rw [Str.breakOn, if_neg (fun hs => h (by
      obtain ⟨b, hb⟩ := (starts_mark _).mp hs
      exact ⟨[], b, by rw [hb]; rfl⟩))]
    rw [ih (fun ⟨a, b, hab⟩ => h ⟨x :: a, b, by rw [← hab]; rfl⟩)]

theorem breakOn_first (a c : Text) (h : FirstMark a c) : ∃ b, Str.breakOn mark c = (a, some b) := by
  obtain ⟨⟨b, rfl⟩, hn⟩ := h
  refine ⟨b, ?_⟩
  induction a with
  | nil =>
    show Str.breakOn mark ('v' :: (['e', 'r', ':'] ++ b)) = _
    have hs : Str.starts mark ('v' :: (['e', 'r', ':'] ++ b)) = true := (starts_mark _).mpr ⟨b, rfl⟩
    rw [Str.breakOn, if_pos hs]
    rfl
  | cons x a ih =>
    rw [List.cons_append, List.cons_append, Str.breakOn, if_neg]
    · rw [ih (fun ⟨u, w, huw⟩ => hn ⟨x :: u, w, congrArg (x :: ·) huw⟩)]
    · intro hs
      obtain ⟨r, hr⟩ := (starts_mark _).mp hs
      have hp : mark <+: (x :: a ++ ['v', 'e', 'r']) ++ (':' :: b) := by
        refine ⟨r, ?_⟩
        rw [← hr]
        simp [mark]
      have hl : mark.length ≤ (x :: a ++ ['v', 'e', 'r']).length := by simp [mark]
      obtain ⟨w, hw⟩ := List.prefix_of_prefix_length_le hp (List.prefix_append _ _) hl
      exact hn ⟨[], w, hw⟩

theorem first_exists : ∀ c : Text, mark <:+: c → ∃ a, FirstMark a c
  | [], ⟨u, w, h⟩ => by simp [mark] at h
  | x :: t, ⟨u, w, h⟩ => by
    by_cases hs : ∃ b, x :: t = mark ++ b
    · obtain ⟨b, hb⟩ := hs
      refine ⟨[], ⟨b, hb⟩, ?_⟩
      rintro ⟨u, w, h⟩
      have := congrArg List.length h
      simp [mark] at this
      omega
    · have ht : mark <:+: t := by
        cases u with
        | nil => exact absurd ⟨w, by rw [← h]; rfl⟩ hs
        | cons y u =>
          simp only [List.cons_append, List.cons.injEq] at h
          exact ⟨u, w, h.2⟩
      obtain ⟨a, ⟨b, hb⟩, hn⟩ := first_exists t ht
      refine ⟨x :: a, ⟨b, by rw [hb]; rfl⟩, ?_⟩
      rintro ⟨u, w, h⟩
      cases u with
      | nil =>
        apply hs
        have : x :: t = mark ++ (w ++ (':' :: b)) := by
          have e : x :: t = (x :: a ++ ['v', 'e', 'r']) ++ (':' :: b) := by rw [hb]; simp [mark]
          rw [e, ← h]; simp
        exact ⟨_, this⟩
      | cons y u =>
        simp only [List.cons_append, List.cons.injEq] at h
        exact hn ⟨u, w, h.2⟩

/-- the mark of a comment that is its own result -/
theorem first_again (a v : Text) (h : ¬ mark <:+: a ++ ['v', 'e', 'r']) : FirstMark a (a ++ ['v', 'e', 'r'] ++ ':' :: v) :=
  ⟨⟨v, by simp [mark]⟩, h⟩

/-! ### C55: comments -/

/-- **C55**: when a product version is known and the comment has the mark `ver:`, what follows its first occurrence is replaced by the version
(preceded by the file name for root objects); nothing else in the object changes. -/
theorem C55_comment_mark (o : Options) (hp : List Nat) (pv : Text) (h : Val) (tok a : Text) (ho : o.productVersion ≠ []) (hpv : pv ≠ [])
    (hc : getAt h (hp ++ [4]) = some (.str tok)) (hm : FirstMark a (strDecode tok)) :
    ∃ h', setComment o hp pv h = some h' ∧ getAt h' (hp ++ [4]) = some (.str (strEncode (a ++ mark ++ pv))) ∧
      ∀ q, ¬ (hp ++ [4]) <+: q → ¬ q <+: (hp ++ [4]) → getAt h' q = getAt h q := by
  obtain ⟨b, hb⟩ := breakOn_first a _ hm
  obtain ⟨h', hh'⟩ := setAt_some (hp ++ [4]) h _ (.str (strEncode (a ++ ['v', 'e', 'r'] ++ ':' :: pv))) hc
  refine ⟨h', ?_, ?_, fun q h1 h2 => getAt_frame _ _ _ _ _ hh' h1 h2⟩
  · rw [setComment, if_neg hpv, hc]
    simp only [hb]
    rw [if_neg ho, hh']
  · rw [getAt_setAt _ _ _ _ hh']
    simp [mark]

/-- **C55**: a comment without the mark is never touched, and no comment is touched when no product version is known -/
theorem C55_comment_kept (o : Options) (hp : List Nat) (pv : Text) (h : Val) (tok : Text)
    (hc : getAt h (hp ++ [4]) = some (.str tok)) (hm : ¬ mark <:+: strDecode tok ∨ o.productVersion = []) :
    setComment o hp pv h = some h := by
  rw [setComment]
  by_cases hpv : pv = []
  · rw [if_pos hpv]
  · rw [if_neg hpv, hc]
    by_cases hi : mark <:+: strDecode tok
    · have ho := hm.resolve_left (fun hn => hn hi)
      obtain ⟨a, ha⟩ := first_exists _ hi
      obtain ⟨b, hb⟩ := breakOn_first a _ ha
      simp only [hb]
      rw [if_pos ho]
    · simp only [breakOn_none _ hi]

/-- **C55**: only the last build counts: the comment after any build is what that build alone would have made of the original -/
theorem C55_comment_last_wins (o1 o2 : Options) (hp : List Nat) (pv1 pv2 : Text) (h h1 : Val) (h2n : pv2 ≠ []) (ho2 : o2.productVersion ≠ [])
    (h1s : setComment o1 hp pv1 h = some h1) : setComment o2 hp pv2 h1 = setComment o2 hp pv2 h := by
  rw [setComment] at h1s
  by_cases hpv : pv1 = []
  · rw [if_pos hpv] at h1s
    cases h1s; rfl
  · rw [if_neg hpv] at h1s
    cases hc : getAt h (hp ++ [4]) with
    | none => rw [hc] at h1s; cases h1s
    | some v =>
      rw [hc] at h1s
      cases v with
      | str tok =>
        simp only at h1s
        by_cases hi : mark <:+: strDecode tok
        · obtain ⟨a, ha⟩ := first_exists _ hi
          obtain ⟨b, hb⟩ := breakOn_first a _ ha
          rw [hb] at h1s
          simp only at h1s
          by_cases ho1 : o1.productVersion = []
          · rw [if_pos ho1] at h1s
            cases h1s; rfl
          · rw [if_neg ho1] at h1s
            have hg := getAt_setAt _ _ _ _ h1s
            obtain ⟨b', hb'⟩ := breakOn_first a _ (first_again a pv1 ha.2)
            rw [setComment, setComment, if_neg h2n, if_neg h2n, hg, hc]
            simp only [strDecode_strEncode, hb, hb']
            rw [if_neg ho2, if_neg ho2]
            exact setAt_setAt _ _ _ _ _ h1s
        · rw [breakOn_none _ hi] at h1s
          cases h1s; rfl
      | _ => cases h1s

theorem esc_cut (s : Text) : ∀ (a r : Text) (c : Char), c ≠ '"' → esc s = a ++ c :: r → ∃ s1, a = esc s1 := by
  induction s with
  | nil => intro a r c hc h; cases a <;> simp [esc] at h
  | cons x s ih =>
    intro a r c hc h
    rw [esc_cons] at h
    by_cases hx : x = '"'
    · rw [if_pos hx] at h
      match a with
      | [] => simp at h; exact absurd h.1.symm hc
      | [y] => simp at h; exact absurd h.2.1.symm hc
      | y :: z :: a' =>
        simp at h
        obtain ⟨s1, hs1⟩ := ih a' r c hc h.2.2
        exact ⟨'"' :: s1, by rw [esc_cons, if_pos rfl, hs1, ← h.1, ← h.2.1]; rfl⟩
    · rw [if_neg hx] at h
      match a with
      | [] => exact ⟨[], rfl⟩
      | y :: a' =>
        simp at h
        obtain ⟨s1, hs1⟩ := ih a' r c hc h.2
        exact ⟨x :: s1, by rw [esc_cons, if_neg hx, hs1, ← h.1]; rfl⟩

theorem esc_append (a b : Text) : esc (a ++ b) = esc a ++ esc b := by simp [esc]

theorem esc_id (v : Text) (h : '"' ∉ v) : esc v = v := by
  induction v with
  | nil => rfl
  | cons x v ih =>
    rw [esc_cons, if_neg (fun hx => h (by simp [hx])), ih (fun hm => h (by simp [hm]))]
    rfl

/-- **C55**: a well-formed string literal stays well-formed when the version has no quotes: the cut never falls between the two quotes of a
doubled quote -/
theorem C55_comment_literal (o : Options) (hp : List Nat) (pv : Text) (h h' : Val) (s : Text) (hq : '"' ∉ pv)
    (hc : getAt h (hp ++ [4]) = some (.str (quoted s))) (hs : setComment o hp pv h = some h') :
    ∃ s', getAt h' (hp ++ [4]) = some (.str (quoted s')) := by
  rw [setComment] at hs
  by_cases hpv : pv = []
  · rw [if_pos hpv] at hs; cases hs; exact ⟨s, hc⟩
  · rw [if_neg hpv, hc] at hs
    simp only at hs
    have hd : strDecode (quoted s) = esc s := by rw [quoted_eq]; exact strDecode_strEncode _
    rw [hd] at hs
    by_cases hi : mark <:+: esc s
    · obtain ⟨a, ha⟩ := first_exists _ hi
      obtain ⟨b, hb⟩ := breakOn_first a _ ha
      rw [hb] at hs
      simp only at hs
      by_cases ho : o.productVersion = []
      · rw [if_pos ho] at hs; cases hs; exact ⟨s, hc⟩
      · rw [if_neg ho] at hs
        obtain ⟨⟨r, hr⟩, _⟩ := ha
        obtain ⟨s1, hs1⟩ := esc_cut s a (['e', 'r', ':'] ++ r) 'v' (by decide) (by rw [hr]; simp [mark])
        refine ⟨s1 ++ mark ++ pv, ?_⟩
        rw [getAt_setAt _ _ _ _ hs, quoted_eq, esc_append, esc_append, esc_id pv hq, ← hs1]
        show some (Val.str (strEncode _)) = _
        rw [show esc mark = mark from by decide]
        simp [strEncode, mark]
    · rw [breakOn_none _ hi] at hs
      cases hs; exact ⟨s, hc⟩

/-- C55, limit: the mark is found inside a word and everything behind it is dropped: two objects whose comments differ only behind `ver:`
become the same (the comment `Driver: serial port` loses its text). -/
theorem C55_text_behind_mark_lost (o : Options) (hp : List Nat) (pv : Text) (h1 h2 : Val) (a b1 b2 : Text) (ho : o.productVersion ≠ [])
    (hpv : pv ≠ []) (hn : ¬ mark <:+: a ++ ['v', 'e', 'r']) (hc : getAt h1 (hp ++ [4]) = some (.str (strEncode (a ++ mark ++ b1))))
    (he : setAt h1 (hp ++ [4]) (.str (strEncode (a ++ mark ++ b2))) = some h2) : setComment o hp pv h1 = setComment o hp pv h2 := by
  have hc2 := getAt_setAt _ _ _ _ he
  obtain ⟨b, hb⟩ := breakOn_first a (a ++ mark ++ b1) ⟨⟨b1, rfl⟩, hn⟩
  obtain ⟨b', hb'⟩ := breakOn_first a (a ++ mark ++ b2) ⟨⟨b2, rfl⟩, hn⟩
  rw [setComment, setComment, if_neg hpv, if_neg hpv, hc, hc2]
  simp only [strDecode_strEncode, hb, hb']
  rw [if_neg ho, if_neg ho, setAt_setAt _ _ _ _ _ he]

/-- a header file with one root, shaped as in extensions, with a given version slot, comment, prefix and mode -/
def sampleExt (version comment : Text) (mode : Val) : Val :=
  .list [.list [.str [], .str [], .str [], .list [.str [], .list [.str [],
    .list ([.str ['0'], .list [.str [], .list [.str ['3'], .list [.str [], .str [], .str ['u']], .str ['n'], .list [.str ['0']], .str comment]]] ++
      List.replicate 13 (.str ['0']) ++ [.str version] ++ List.replicate 26 (.str ['0']) ++ [.str ['p'], mode])]]]]

example : getAt (sampleExt (strEncode "1.2".toList) (strEncode "my ver: 7".toList) (.str "80306".toList)) (rootHeader ++ [4]) =
    some (.str (strEncode "my ver: 7".toList)) := by decide +kernel
example : getAt (sampleExt (strEncode "1.2".toList) (strEncode "my ver: 7".toList) (.str "80306".toList)) versionPath =
    some (.str (strEncode "1.2".toList)) := by decide +kernel
example : setInfoExt ⟨"2.0".toList, [], none, none⟩ "a.cfe".toList
      (sampleExt (strEncode "1.2".toList) (strEncode "my ver: 7".toList) (.str "80306".toList)) =
    some (sampleExt (strEncode "2.0".toList) (strEncode "my ver:a.cfe:2.0".toList) (.str "80306".toList)) := by decide +kernel
example : FirstMark "my ".toList "my ver: 7".toList := ⟨⟨" 7".toList, by decide⟩, by decide⟩

/-! ### C55: the version of an extension -/

theorem readVersion_versionFile (win : Bool) (h : Val) (tok : Text) (hv : getAt h versionPath = some (.str tok)) :
    (versionFile win h) = some (utf8 (osWrite win (strDecode tok))) ∧
    readVersion (versionFile win h) = some (io win (strDecode tok)) := by
  have : versionFile win h = some (utf8 (osWrite win (strDecode tok))) := by rw [versionFile, hv]
  refine ⟨this, ?_⟩
  rw [this, readVersion, utf8Text_utf8]
  rfl

/-- **C55**: outside batch mode the version of an extension comes back: for every version text without carriage returns the header built from the
extracted version.bin has the version it had -/
theorem C55_version_round_trip (win : Bool) (o : Options) (h : Val) (v : Text) (hr : '\r' ∉ v)
    (hv : getAt h versionPath = some (.str (strEncode v))) (hp : o.product = []) :
    ∃ pv, readVersion (versionFile win h) = some pv ∧ setVersion { o with productVersion := pv } h = some h := by
  refine ⟨v, ?_, ?_⟩
  · rw [(readVersion_versionFile win h _ hv).2, strDecode_strEncode]
    exact congrArg some (universal_osWrite win v hr)
  · rw [setVersion]
    simp only [hp, if_true]
    exact setAt_getAt _ _ _ hv

/-- one build in batch mode and the extraction of its result: the header and the version.bin after the next extraction -/
noncomputable def batchCycle (win : Bool) (o : Options) (h : Val) : Option Val :=
  (readVersion (versionFile win h)).bind (fun pv => setVersion { o with productVersion := pv } h)

noncomputable def batchCycles (win : Bool) (o : Options) : Nat → Val → Option Val
  | 0, h => some h
  | n + 1, h => (batchCycle win o h).bind (batchCycles win o n)

/-- `product_product_…version` -/
def pile (product : Text) : Nat → Text → Text
  | 0, v => v
  | n + 1, v => pile product n (product ++ '_' :: v)

/-- C55, limit: in batch mode the name of the product is put before the version on every build and is never taken off again: after `n` rounds of
build and extraction it is there `n` times -/
theorem C55_batch_prefix_piles_up (win : Bool) (o : Options) (hp : o.product ≠ []) (hpr : '\r' ∉ o.product) : ∀ (n : Nat) (h : Val) (v : Text),
    '\r' ∉ v → getAt h versionPath = some (.str (strEncode v)) →
    ∃ h', batchCycles win o n h = some h' ∧ getAt h' versionPath = some (.str (strEncode (pile o.product n v)))
  | 0, h, v, _, hv => ⟨h, rfl, hv⟩
  | n + 1, h, v, hr, hv => by
    obtain ⟨h1, hh1⟩ := setAt_some versionPath h _ (.str (strEncode (o.product ++ '_' :: v))) hv
    have hcyc : batchCycle win o h = some h1 := by
      rw [batchCycle, (readVersion_versionFile win h _ hv).2, strDecode_strEncode, io, universal_osWrite win v hr, Option.bind_some, setVersion]
      simp only [if_neg hp]
      exact hh1
    have hr' : '\r' ∉ o.product ++ '_' :: v := by simp [hpr, hr]
    obtain ⟨h', e1, e2⟩ := C55_batch_prefix_piles_up win o hp hpr n h1 (o.product ++ '_' :: v) hr' (getAt_setAt _ _ _ _ hh1)
    exact ⟨h', by rw [batchCycles, hcyc]; exact e1, e2⟩

/-- the length grows with every round, so that no round is without effect -/
theorem C55_batch_version_changes (product v : Text) (n : Nat) : (pile product n v).length = v.length + n * (product.length + 1) := by
  induction n generalizing v with
  | zero => simp [pile]
  | succ n ih => rw [pile, ih]; simp [Nat.add_mul]; omega

/-- C55, limit: when version.bin is missing the version of the extension is replaced by an empty one -/
theorem C55_missing_version_erased (o : Options) (h : Val) (tok : Text) (hv : getAt h versionPath = some (.str tok)) (ho : o.productVersion = [])
    (hp : o.product = []) : readVersion none = some [] ∧
      ∃ h', setVersion o h = some h' ∧ getAt h' versionPath = some (.str ['"', '"']) := by
  refine ⟨rfl, ?_⟩
  obtain ⟨h', hh'⟩ := setAt_some versionPath h _ (.str (strEncode [])) hv
  exact ⟨h', by rw [setVersion]; simp only [hp, ho, if_true]; exact hh', getAt_setAt _ _ _ _ hh'⟩

/-- **C55**: the mark of an external data processor or report is followed by the file name and the version -/
theorem C55_processor_comment (o : Options) (file : Text) (h : Val) (tok a : Text) (ho : o.productVersion ≠ []) (hf : file ≠ [])
    (hc : getAt h [0, 3, 1, 1, 3, 1, 4] = some (.str tok)) (hm : FirstMark a (strDecode tok)) :
    ∃ h', setInfoEdp o file h = some h' ∧ getAt h' [0, 3, 1, 1, 3, 1, 4] = some (.str (strEncode (a ++ "ver:".toList ++ file ++ ":".toList ++ o.productVersion))) ∧
      ∀ q, ¬ [0, 3, 1, 1, 3, 1, 4] <+: q → ¬ q <+: [0, 3, 1, 1, 3, 1, 4] → getAt h' q = getAt h q := by
  rw [show ([0, 3, 1, 1, 3, 1, 4] : List Nat) = edpHeader ++ [4] from rfl] at hc ⊢
  obtain ⟨h', e1, e2, e3⟩ := C55_comment_mark o edpHeader (productInfo o file) h tok a ho (by simp [productInfo]) hc hm
  refine ⟨h', by rw [setInfoEdp, if_neg hf, e1], ?_, e3⟩
  rw [e2]
  simp [mark, productInfo]

/-- **C55**: the mark of a data processor inside a configuration is followed by the version alone -/
theorem C55_inner_processor_comment (o : Options) (h : Val) (tok a : Text) (ho : o.productVersion ≠ [])
    (hc : getAt h [0, 1, 3, 1, 4] = some (.str tok)) (hm : FirstMark a (strDecode tok)) :
    ∃ h', setInfoDp o h = some h' ∧ getAt h' [0, 1, 3, 1, 4] = some (.str (strEncode (a ++ "ver:".toList ++ o.productVersion))) ∧
      ∀ q, ¬ [0, 1, 3, 1, 4] <+: q → ¬ q <+: [0, 1, 3, 1, 4] → getAt h' q = getAt h q := by
  rw [show ([0, 1, 3, 1, 4] : List Nat) = dpHeader ++ [4] from rfl] at hc ⊢
  obtain ⟨h', e1, e2, e3⟩ := C55_comment_mark o dpHeader o.productVersion h tok a ho ho hc hm
  exact ⟨h', e1, e2, e3⟩

/-- **C55**: an extension gets the version in its version and, with the file name, behind the mark of its comment; nothing else changes -/
theorem C55_extension_comment (o : Options) (file : Text) (h : Val) (x tok a : Text) (ho : o.productVersion ≠ []) (hf : file ≠ [])
    (hp : o.product = []) (hx : getAt h [0, 3, 1, 1, 15] = some (.str x))
    (hc : getAt h [0, 3, 1, 1, 1, 1, 4] = some (.str tok)) (hm : FirstMark a (strDecode tok)) :
    ∃ h', setInfoExt o file h = some h' ∧ getAt h' [0, 3, 1, 1, 1, 1, 4] = some (.str (strEncode (a ++ "ver:".toList ++ file ++ ":".toList ++ o.productVersion))) ∧
      getAt h' [0, 3, 1, 1, 15] = some (.str (strEncode o.productVersion)) ∧
      ∀ q, ¬ [0, 3, 1, 1, 1, 1, 4] <+: q → ¬ q <+: [0, 3, 1, 1, 1, 1, 4] → ¬ [0, 3, 1, 1, 15] <+: q → ¬ q <+: [0, 3, 1, 1, 15] → getAt h' q = getAt h q := by
  rw [show ([0, 3, 1, 1, 1, 1, 4] : List Nat) = rootHeader ++ [4] from rfl] at hc ⊢
  rw [show ([0, 3, 1, 1, 15] : List Nat) = versionPath from rfl] at hx ⊢
  obtain ⟨h1, hh1⟩ := setAt_some versionPath h _ (.str (strEncode o.productVersion)) hx
  have hd1 : ¬ versionPath <+: rootHeader ++ [4] := by decide
  have hd2 : ¬ rootHeader ++ [4] <+: versionPath := by decide
  have hc1 : getAt h1 (rootHeader ++ [4]) = some (.str tok) := by rw [getAt_frame _ _ _ _ _ hh1 hd1 hd2, hc]
  obtain ⟨h', e1, e2, e3⟩ := C55_comment_mark o rootHeader (productInfo o file) h1 tok a ho (by simp [productInfo]) hc1 hm
  refine ⟨h', ?_, ?_, ?_, fun q q1 q2 q3 q4 => ?_⟩
  · rw [setInfoExt, setVersion]
    simp only [hp, if_true]
    rw [hh1, Option.bind_some, if_neg hf, e1]
  · rw [e2]; simp [mark, productInfo]
  · rw [e3 _ hd2 hd1, getAt_setAt _ _ _ _ hh1]
  · rw [e3 q q1 q2, getAt_frame _ _ _ _ _ hh1 q3 q4]

/-! ### C56 -/

/-- **C56**: without the option the compatibility mode is what it was: the extracted header is the header of the file and building returns it,
for configurations and extensions, whatever the mode -/
theorem C56_mode_round_trip (slot : List Nat) (o : Options) (h v : Val) (hv : getAt h slot = some v) (ho : o.version = none) :
    ∃ c h', extractCompat slot o h = some (c, h') ∧ h' = h ∧ buildCompat slot o (some c) h' = some h := by
  refine ⟨v, h, by rw [extractCompat, decodeCompat, hv]; rfl, rfl, ?_⟩
  rw [buildCompat, ho]
  exact setAt_getAt _ _ _ hv

/-- **C56**: with the option the mode of the built file is the one asked for, whatever is recorded, and nothing else changes -/
theorem C56_mode_replaced (slot : List Nat) (o : Options) (h x : Val) (v : Text) (rec : Option Val) (hx : getAt h slot = some x)
    (ho : o.version = some v) : ∃ h', buildCompat slot o rec h = some h' ∧ getAt h' slot = some (.str v) ∧
      ∀ q, ¬ slot <+: q → ¬ q <+: slot → getAt h' q = getAt h q := by
  obtain ⟨h', hh'⟩ := setAt_some slot h _ (.str v) hx
  exact ⟨h', by simp only [buildCompat, ho]; exact hh', getAt_setAt _ _ _ _ hh', fun q h1 h2 => getAt_frame _ _ _ _ _ hh' h1 h2⟩

/-- **C56**: a mode edited in the sources is the one that is built -/
theorem C56_recorded_mode_wins (slot : List Nat) (o : Options) (h x w : Val) (hx : getAt h slot = some x) (ho : o.version = none) :
    ∃ h', buildCompat slot o (some w) h = some h' ∧ getAt h' slot = some w := by
  obtain ⟨h', hh'⟩ := setAt_some slot h _ w hx
  exact ⟨h', by rw [buildCompat, ho]; exact hh', getAt_setAt _ _ _ _ hh'⟩

/-- C56, limit: the option is promised for extraction too (`--version`, v8unpack.py:205-210), but extraction ignores it: the recorded mode is that
of the file, so it is never the one asked for when they differ -/
theorem C56_extraction_ignores_option (slot : List Nat) (o : Options) (h c h' : Val) (v : Text) (_hv : o.version = some v)
    (hd : getAt h slot ≠ some (.str v)) (he : extractCompat slot o h = some (c, h')) :
    h' = h ∧ getAt h slot = some c ∧ c ≠ .str v ∧ getAt h' slot ≠ some (.str v) := by
  rw [extractCompat, decodeCompat, Option.map_eq_some_iff] at he
  obtain ⟨w, hw, he⟩ := he
  cases he
  exact ⟨rfl, hw, fun hc => hd (by rw [hw, hc]), hd⟩

example : ∃ h, extractCompat compatExt ⟨[], [], some "80306".toList, none⟩ h = some (.str "80316".toList, h) :=
  ⟨sampleExt [] [] (.str "80316".toList), by decide +kernel⟩

/-- **C56**: the option prefix replaces the prefix of an extension and nothing else -/
theorem C56_prefix_replaced (o : Options) (h x : Val) (p : Text) (hx : getAt h prefixPath = some x) (ho : o.pfx = some p) :
    ∃ h', buildPrefix o h = some h' ∧ getAt h' prefixPath = some (.str (strEncode p)) ∧
      ∀ q, ¬ prefixPath <+: q → ¬ q <+: prefixPath → getAt h' q = getAt h q := by
  obtain ⟨h', hh'⟩ := setAt_some prefixPath h _ (.str (strEncode p)) hx
  exact ⟨h', by rw [buildPrefix, ho]; exact hh', getAt_setAt _ _ _ _ hh', fun q h1 h2 => getAt_frame _ _ _ _ _ hh' h1 h2⟩

/-! ### an extension as a whole -/

/-- **C55/C56**: extracting an extension and building it without options gives its root header back, when its comment does not have the mark or its
version is empty -/
theorem C55_extension_round_trip (win : Bool) (o1 o2 : Options) (file : Text) (h : Val) (v ctok : Text) (m : Val) (hr : '\r' ∉ v)
    (hv : getAt h versionPath = some (.str (strEncode v))) (hc : getAt h (rootHeader ++ [4]) = some (.str ctok))
    (hm : getAt h compatExt = some m) (hn : ¬ mark <:+: strDecode ctok ∨ v = [])
    (hp : o2.product = []) (ho : o2.version = none) (hx : o2.pfx = none) :
    ∃ s, extractExt win o1 h = some s ∧ buildExt o2 file s = some h := by
  have hrv : readVersion (versionFile win h) = some v := by
    rw [(readVersion_versionFile win h _ hv).2, strDecode_strEncode]
    exact congrArg some (universal_osWrite win v hr)
  have hvf := (readVersion_versionFile win h _ hv).1
  refine ⟨⟨h, some m, versionFile win h⟩, ?_, ?_⟩
  · rw [extractExt, hvf, Option.bind_some, extractCompat, decodeCompat, hm]
    rfl
  · rw [hvf] at hrv ⊢
    have hsv : setVersion { o2 with productVersion := v } h = some h := by
      rw [setVersion]
      simp only [hp, if_true]
      exact setAt_getAt _ _ _ hv
    have hcm : ∀ pv, setComment { o2 with productVersion := v } rootHeader pv h = some h :=
      fun pv => C55_comment_kept _ _ _ _ _ hc hn
    rw [buildExt]
    simp only [hrv]
    rw [setInfoExt, hsv, Option.bind_some]
    have hif : (if file = [] then some h else
        setComment { o2 with productVersion := v } rootHeader (productInfo { o2 with productVersion := v } file) h) = some h := by
      by_cases hf : file = []
      · rw [if_pos hf]
      · rw [if_neg hf]; exact hcm _
    rw [hif, Option.bind_some]
    have hbc : buildCompat compatExt { o2 with productVersion := v } (some m) h = some h := by
      rw [buildCompat]
      simp only [ho]
      exact setAt_getAt _ _ _ hm
    rw [hbc, Option.bind_some, buildPrefix]
    simp only [hx]

example : getAt (sampleExt (strEncode "1.2".toList) (strEncode "no mark".toList) (.str "80306".toList)) compatExt = some (.str "80306".toList) := by
  decide +kernel

end V8.Product
