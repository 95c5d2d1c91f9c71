import Verif.Props.Pipe
import Verif.Props.RootAgain
/-
C80: extraction, build and extraction again.
-/
namespace V8.Pipe
open V8.Str V8.Brace V8.Enc V8.JsonText V8.Header
open V8.Object hiding Cls
open V8.Misc (Cls)
open V8.Tree hiding Dir
open V8.Store hiding Kind nodeOf Node
open V8.Code (Dir)
open V8.FormJson
open V8.Nested (Obj Entry)
open V8.Root V8.Stage V8.Whole
open V8.Zlib (Inflater)

/-! ### the statement -/

/-- a name of a file that can be written in quotes into a table -/
structure NameFit (n : Text) : Prop where
  quote : '"' ∉ n
  line : '\r' ∉ n
  short : n.length ≤ 62

/-- an identifier, a digest: not longer than 64 characters, no separators -/
def TokenFit (t : Text) : Prop := t ≠ [] ∧ t.length ≤ 64 ∧ ∀ c ∈ t, c ≠ '#' ∧ c ≠ ',' ∧ c ≠ '}' ∧ c ≠ '"' ∧ c ≠ '\n' ∧ c ≠ '\r'

/-- what C80 asks of the product file and of the system, besides what C67 asks -/
structure AgainOk (C : Text → Option Class) (e : V8.Root.Env) (c : Cls) (k : V8.Stage.Disk) (L : Folder) (fu u : Text) (dr dh : List (List Val)) : Prop where
  /-- the names of the files of objects are not those of the tables the build makes, nor (for an extension) the name that marks a configuration -/
  free : ∀ m, m ∈ ownNames c u fu ∨ NestedNames C e c (view L) dh m → m ≠ "versions".toList ∧ m ≠ "configinfo".toList ∧ (c = .extension → m ≠ "root".toList)
  names : ∀ p ∈ L, NameFit p.1
  ids : ∀ i, TokenFit (e.rnd i)
  /-- base64 of a SHA-1 digest -/
  digest : ∀ b, (k.digest b).length = 28 ∧ TokenFit (k.digest b)
  win : c = .extension → k.win = e.y.win
  /-- for an extension: version row and copyinfo have no wrapped lines and do not contain the placeholder of the table -/
  info : c = .extension → ∀ v row, Product.getAt (rootVal dr) [0, 1] = some v → Product.getAt (rootVal dr) [1] = some (.list row) →
    '\r' ∉ encRoot [[.str ['0'], v], row] ∧ ¬ V8.Misc.placeholder <:+: encRoot [[.str ['0'], v], row]

/-! ### pieces -/

theorem not_base64 {t : Text} (h : t.length ≤ 64) : ¬ TakenForBase64 t := fun hb => absurd hb.1 (by omega)

theorem token_atom {t : Text} (h : TokenFit t) : Atom t := by
  refine ⟨.inr ⟨fun hh => ?_, fun c hc => (h.2.2 c hc).2⟩, not_base64 h.2.1⟩
  cases t with
  | nil => cases hh
  | cons a r =>
    simp only [List.head?_cons, Option.some.injEq] at hh
    exact (h.2.2 a List.mem_cons_self).1 hh

theorem quoted_plain {n : Text} (h : '"' ∉ n) : quoted n = '"' :: n ++ ['"'] := by
  unfold quoted
  rw [show n.flatMap (fun c => if c = '"' then ['"', '"'] else [c]) = n by
    induction n with
    | nil => rfl
    | cons a r ih =>
      rw [List.flatMap_cons, ih (fun h' => h (List.mem_cons_of_mem _ h')), if_neg (fun h' => h (by rw [h']; exact List.mem_cons_self))]
      rfl]

theorem name_atom {n : Text} (h : NameFit n) : Atom ('"' :: n ++ ['"']) := by
  refine ⟨.inl ⟨n, h.line, (quoted_plain h.quote).symm⟩, not_base64 ?_⟩
  have := h.short
  simp only [List.cons_append, List.length_cons, List.length_append, List.length_nil]
  omega

theorem showNat_length : ∀ (k n : Nat), n < 10 ^ (k + 1) → (V8.Dec.showNat n).length ≤ k + 1
  | 0, n, h => by
    rw [V8.Dec.showNat, if_pos (by simpa using h)]
    simp
  | k + 1, n, h => by
    rw [V8.Dec.showNat]
    by_cases h1 : n < 10
    · rw [if_pos h1]
      simp
    · rw [if_neg h1, List.length_append]
      have := showNat_length k (n / 10) (by rw [Nat.pow_succ] at h; omega)
      simp only [List.length_cons, List.length_nil]
      omega

theorem digit_plain (n : Nat) (h : n < 10) : let c := V8.Dec.digit n
    c ≠ '#' ∧ c ≠ ',' ∧ c ≠ '}' ∧ c ≠ '"' ∧ c ≠ '\n' ∧ c ≠ '\r' := by
  revert h
  revert n
  decide +kernel

theorem showNat_chars (n : Nat) : V8.Dec.showNat n ≠ [] ∧ ∀ c ∈ V8.Dec.showNat n, c ≠ '#' ∧ c ≠ ',' ∧ c ≠ '}' ∧ c ≠ '"' ∧ c ≠ '\n' ∧ c ≠ '\r' := by
  induction n using Nat.strongRecOn with
  | _ n ih =>
    rw [V8.Dec.showNat]
    by_cases h : n < 10
    · rw [if_pos h]
      refine ⟨fun h => (by cases h), fun c hc => ?_⟩
      rw [List.mem_singleton] at hc
      rw [hc]
      exact digit_plain n h
    · rw [if_neg h]
      refine ⟨fun h => ?_, fun c hc => ?_⟩
      · rw [List.append_eq_nil_iff] at h
        cases h.2
      · rcases List.mem_append.mp hc with hc | hc
        · exact (ih (n / 10) (by omega)).2 c hc
        · rw [List.mem_singleton] at hc
          rw [hc]
          exact digit_plain _ (Nat.mod_lt _ (by decide))

theorem number_fit {n : Nat} (h : n < 10 ^ 64) : TokenFit (V8.Dec.showNat n) := ⟨(showNat_chars n).1, showNat_length 63 n h, (showNat_chars n).2⟩

/-- a row of tokens and quoted texts -/
theorem row_wf : ∀ (l : List Val), (∀ v ∈ l, ∃ t, v = .str t ∧ Atom t) → WFElems false l
  | [], _ => by rw [WFElems]; trivial
  | v :: r, h => by
    obtain ⟨t, rfl, ht⟩ := h v List.mem_cons_self
    rw [WFElems, WFVal]
    exact ⟨⟨fun _ => rfl, .inl ht⟩, row_wf r (fun w hw => h w (List.mem_cons_of_mem _ hw))⟩

theorem root_wf {l : List Val} (hne : l ≠ []) (h : ∀ v ∈ l, ∃ t, v = .str t ∧ Atom t) : WFRoot l := by
  unfold WFRoot
  rw [WFVal]
  exact .inr ⟨hne, row_wf l h⟩

theorem versionsRow_atoms {rnd : Nat → Text} (hi : ∀ i, TokenFit (rnd i)) : ∀ (names : List Text) (i : Nat), (∀ m ∈ names, NameFit m) →
    ∀ v ∈ versionsRow rnd i names, ∃ t, v = .str t ∧ Atom t
  | [], _, _, v, hv => by cases hv
  | n :: r, i, h, v, hv => by
    rw [versionsRow] at hv
    rcases List.mem_cons.mp hv with rfl | hv
    · exact ⟨_, rfl, name_atom (h n List.mem_cons_self)⟩
    · rcases List.mem_cons.mp hv with rfl | hv
      · exact ⟨_, rfl, token_atom (hi i)⟩
      · exact versionsRow_atoms hi r (i + 1) (fun m hm => h m (List.mem_cons_of_mem _ hm)) v hv

theorem one_atom : Atom ['1'] := token_atom ⟨fun h => (by cases h), by decide, by decide⟩
theorem empty_atom : Atom ['"', '"'] := ⟨.inl ⟨[], by decide, rfl⟩, not_base64 (by decide)⟩

/-- the table of a configuration is a brace file -/
theorem versions_wf {rnd : Nat → Text} {names : List Text} (hi : ∀ i, TokenFit (rnd i)) (hn : ∀ m ∈ names, NameFit m) (hl : names.length + 1 < 10 ^ 64) :
    WFFile (versionsTree rnd names) := by
  unfold versionsTree
  refine ⟨fun l hm => ?_, ?_⟩
  · rw [List.mem_singleton] at hm
    subst hm
    refine root_wf (fun h => by cases h) (fun v hv => ?_)
    rcases List.mem_cons.mp hv with rfl | hv
    · exact ⟨_, rfl, one_atom⟩
    rcases List.mem_cons.mp hv with rfl | hv
    · exact ⟨_, rfl, token_atom (number_fit hl)⟩
    rcases List.mem_cons.mp hv with rfl | hv
    · exact ⟨_, rfl, empty_atom⟩
    rcases List.mem_cons.mp hv with rfl | hv
    · exact ⟨_, rfl, token_atom (hi 0)⟩
    exact versionsRow_atoms hi names 1 hn v hv
  · rw [NotBigBinary, HasBlob]
    exact id

/-- the table of an extension is a row of tokens -/
theorem table_wf {digest : Bytes → Text} {st : List (Text × Bytes)} (hd : ∀ b, TokenFit (digest b)) (hn : ∀ f ∈ st, NameFit f.1) (hl : st.length < 10 ^ 64) :
    WFRoot (V8.Misc.versionsList digest st) := by
  unfold V8.Misc.versionsList
  refine root_wf (fun h => by cases h) (fun v hv => ?_)
  have hperm : (V8.sortBy Prod.fst st).Perm st := V8.sortBy_perm _ _
  rcases List.mem_cons.mp hv with rfl | hv
  · refine ⟨_, rfl, token_atom (number_fit ?_)⟩
    have h1 := List.length_filter_le (fun f : Text × Bytes => decide (f.1 ≠ V8.Misc.configinfoName)) (V8.sortBy Prod.fst st)
    rw [hperm.length_eq] at h1
    generalize List.length (List.filter _ _) = a at h1 ⊢
    generalize (10 : Nat) ^ 64 = b at hl ⊢
    omega
  · obtain ⟨f, hf, hv⟩ := List.mem_flatMap.mp hv
    have hf := hperm.mem_iff.mp (List.mem_of_mem_filter hf)
    rcases List.mem_cons.mp hv with rfl | hv
    · exact ⟨_, rfl, name_atom (hn f hf)⟩
    · rw [List.mem_singleton] at hv
      exact ⟨_, hv, token_atom (hd f.2)⟩

/-- the version row of an extension is a list -/
theorem ext_row {e : V8.Root.Env} {ver file fu u : Text} {F : Text → Option Store.Node} {dr dh : List (List Val)}
    (hT : ∀ u, e.types u ≠ some "ConfigurationExtension".toList) (hok : ProductOk e .extension ver F file fu u dr dh) (hd : detect e F = some (.extension, ver))
    {v : Val} (hv : Product.getAt (rootVal dr) [0, 1] = some v) : ∃ l, v = .list l := by
  obtain ⟨r, v0, h, hh⟩ := (detected hok hd).2 rfl
  have hx := handler_ext hT hh Val.none Val.none
  rcases (V8.Misc.C39_handler_iff _ _ _ _ _ _ _).mp hx with ⟨h1, _⟩ | ⟨_, _, c0, row, n, a, b, m, q, hc0, ⟨x, r, r', hc1⟩, _, _, hrow, _⟩
  · cases h1
  · cases hc0
    rw [hc1] at hv
    simp only [Product.getAt, List.getElem?_cons_zero, List.getElem?_cons_succ, Option.some.injEq] at hv
    rw [← hv, hrow]
    exact ⟨_, rfl⟩

theorem first_row {dr : List (List Val)} {v : Val} (hv : Product.getAt (rootVal dr) [0, 1] = some v) : ∃ r ∈ dr, v ∈ r := by
  cases dr with
  | nil =>
    rw [show rootVal [] = .list [] from rfl] at hv
    simp [Product.getAt] at hv
  | cons r s =>
    rw [show rootVal (r :: s) = .list (.list r :: s.map Val.list) from rfl] at hv
    simp only [Product.getAt, List.getElem?_cons_zero] at hv
    cases h1 : r[1]? with
    | none => rw [h1] at hv; cases hv
    | some w =>
      rw [h1] at hv
      simp only [Option.some.injEq] at hv
      subst hv
      exact ⟨r, List.mem_cons_self, List.mem_of_getElem? h1⟩

theorem second_row {dr : List (List Val)} {row : List Val} (hv : Product.getAt (rootVal dr) [1] = some (.list row)) : row ∈ dr := by
  unfold rootVal at hv
  simp only [Product.getAt] at hv
  cases h1 : (dr.map Val.list)[1]? with
  | none => rw [h1] at hv; cases hv
  | some w =>
    rw [h1] at hv
    simp only [Option.some.injEq] at hv
    subst hv
    obtain ⟨x, hx, he⟩ := List.mem_map.mp (List.mem_of_getElem? h1)
    cases he
    exact hx

theorem elems_mem : ∀ {l : List Val} {p : Bool} {x : List Val}, WFElems p l → Val.list x ∈ l → WFRoot x
  | v :: r, p, x, h, hx => by
    rw [WFElems] at h
    rcases List.mem_cons.mp hx with he | hx
    · rw [← he] at h
      unfold WFRoot
      have h := h.1
      rw [WFVal] at h ⊢
      exact h
    · exact elems_mem h.2 hx

theorem member_wf {dr : List (List Val)} {r x : List Val} (h : WFFile dr) (hr : r ∈ dr) (hx : Val.list x ∈ r) : WFRoot x := by
  have h1 := h.1 r hr
  unfold WFRoot at h1
  rw [WFVal] at h1
  rcases h1 with ⟨t, rfl, _⟩ | ⟨_, h1⟩
  · rw [List.mem_singleton] at hx
    cases hx
  · exact elems_mem h1 hx

theorem info_wf {dr : List (List Val)} {x row t : List Val} (h : WFFile dr) (hv : Product.getAt (rootVal dr) [0, 1] = some (.list x))
    (hrow : Product.getAt (rootVal dr) [1] = some (.list row)) (ht : WFRoot t) : WFFile [[.str ['0'], .list x], row, t] := by
  obtain ⟨r, hr, hx⟩ := first_row hv
  have hw := member_wf h hr hx
  refine ⟨fun l hl => ?_, by rw [NotBigBinary]; trivial; intro a b c hh; cases hh⟩
  rcases List.mem_cons.mp hl with rfl | hl
  · unfold WFRoot at hw ⊢
    rw [WFVal]
    refine .inr ⟨fun h => (by cases h), ?_⟩
    rw [WFElems, WFElems, WFElems, WFVal]
    refine ⟨⟨fun _ => rfl, .inl (token_atom ⟨fun h => (by cases h), by decide, by decide⟩)⟩, ?_, trivial⟩
    rw [WFVal] at hw ⊢
    exact hw
  rcases List.mem_cons.mp hl with rfl | hl
  · exact h.1 _ (second_row hrow)
  · rw [List.mem_singleton] at hl
    rw [hl]
    exact ht

/-- what a build makes is what C80 asks of a container -/
theorem rebuilt {C : Text → Option Class} {e : V8.Root.Env} {c : Cls} {ver : Text} {k : V8.Stage.Disk} {L l out : Folder} {file fu u : Text} {dr dh : List (List Val)}
    {files : List (Text × Store.Node)} (hT : ∀ u, e.types u ≠ some "ConfigurationExtension".toList) (hd : detect e (view L) = some (c, ver))
    (hok : ProductOk e c ver (view L) file fu u dr dh) (ha : AgainOk C e c k L fu u dr dh) (hl : OnDisk l files) (hlen : files.length < 2 ^ 64)
    (h1 : ∀ m, (c ≠ .extension → m ≠ "versions".toList) → m ≠ "configinfo".toList →
      (m ∈ ownNames c u fu ∨ NestedNames C e c (view L) dh m → view out m = view L m) ∧
      (¬ (m ∈ ownNames c u fu ∨ NestedNames C e c (view L) dh m) → view out m = none))
    (h2 : c ≠ .extension → ¬ ("versions".toList ∈ ownNames c u fu ∨ NestedNames C e c (view L) dh "versions".toList) →
      ∃ names, names.Perm (files.map (·.1)) ∧ view out "versions".toList = some (.file (braceFile e.y.win (versionsTree e.rnd names))) ∧ ∀ m, m ∈ names ↔ view out m ≠ none)
    (h3 : c ≠ .extension → ¬ ("configinfo".toList ∈ ownNames c u fu ∨ NestedNames C e c (view L) dh "configinfo".toList) → view out "configinfo".toList = none)
    (h4 : c = .extension → ¬ ("configinfo".toList ∈ ownNames c u fu ∨ NestedNames C e c (view L) dh "configinfo".toList) →
      ∃ v row st b, Product.getAt (rootVal dr) [0, 1] = some v ∧ Product.getAt (rootVal dr) [1] = some (.list row) ∧ mapExcept (Stage.storedOf k) l = .ok st ∧ (∀ m, m ∈ st.map (·.1) ↔ view out m ≠ none) ∧
        stamped k st (braceFile e.y.win (newInfo v row)) = some b ∧ view out "configinfo".toList = some (.file b)) :
    Rebuilt C e c (view L) (view out) fu u dr dh := by
  have n1 : ¬ ("versions".toList ∈ ownNames c u fu ∨ NestedNames C e c (view L) dh "versions".toList) := fun h => (ha.free _ h).1 rfl
  have n2 : ¬ ("configinfo".toList ∈ ownNames c u fu ∨ NestedNames C e c (view L) dh "configinfo".toList) := fun h => (ha.free _ h).2.1 rfl
  have hsame : ∀ m, m ∈ ownNames c u fu ∨ NestedNames C e c (view L) dh m → view out m = view L m := fun m hm =>
    (h1 m (fun _ => (ha.free m hm).1) (ha.free m hm).2.1).1 hm
  -- every file of the new container has a name that can be written in quotes
  have hnames : ∀ m, view out m ≠ none → NameFit m := by
    intro m hm
    by_cases e1 : m = "versions".toList
    · rw [e1]; exact ⟨by decide, by decide, by decide⟩
    by_cases e2 : m = "configinfo".toList
    · rw [e2]; exact ⟨by decide, by decide, by decide⟩
    by_cases h : m ∈ ownNames c u fu ∨ NestedNames C e c (view L) dh m
    · rw [hsame m h, view_iff] at hm
      obtain ⟨p, hp, rfl⟩ := List.mem_map.mp hm
      exact ha.names p hp
    · exact absurd ((h1 m (fun _ => e1) e2).2 h) hm
  have hbig : (2 : Nat) ^ 64 + 1 < 10 ^ 64 := by decide +kernel
  refine ⟨hsame, fun hc => h3 hc n2, fun hc => ?_, fun hc => ?_, fun hc => ?_⟩
  · refine (h1 "root".toList (fun h => absurd hc h) (by decide)).2 (fun h => (ha.free _ h).2.2 hc rfl)
  · have hc' : c ≠ .extension := by rw [hc]; exact fun h => by cases h
    obtain ⟨names, p1, p2, p3⟩ := h2 hc' n1
    refine ⟨_, p2, fun h => (by unfold versionsTree at h; cases h), versions_wf ha.ids (fun m hm => hnames m ((p3 m).mp hm)) ?_⟩
    rw [p1.length_eq, List.length_map]
    generalize (10 : Nat) ^ 64 = a at hbig ⊢
    omega
  · subst hc
    obtain ⟨v, row, st, b, q1, q2, q3, q4, q5, q6⟩ := h4 rfl n2
    obtain ⟨x, rfl⟩ := ext_row hT hok hd q1
    have hst : ∃ f ∈ st, f.1 ≠ V8.Misc.configinfoName := by
      have hfu : view out fu ≠ none := by
        rw [hsame fu (.inl (own_head _ u fu)), hok.head]
        exact fun h => by cases h
      obtain ⟨f, hf, he⟩ := List.mem_map.mp ((q4 fu).mpr hfu)
      exact ⟨f, hf, by rw [he]; exact (ha.free fu (.inl (own_head _ u fu))).2.1⟩
    obtain ⟨i1, i2⟩ := ha.info rfl _ row q1 q2
    have hb := C67_configinfo k st (.list x) row hst (fun b => ⟨(ha.digest b).1, fun h => ((ha.digest b).2.2.2 _ h).1 rfl⟩) i1 i2
    rw [← ha.win rfl, hb] at q5
    cases q5
    have hlst : st.length = l.length := (mapExcept_some _ _ q3).length_eq.symm
    have hll : l.length ≤ files.length := by
      obtain ⟨fs', hperm, hv⟩ := hl.same
      have hsub : ∀ m ∈ l.map (·.1), m ∈ files.map (·.1) := by
        intro m hm
        have hm := (view_iff m).mpr hm
        rw [hv] at hm
        obtain ⟨nd, hnd⟩ := Option.ne_none_iff_exists'.mp hm
        exact List.mem_map.mpr ⟨_, hperm.mem_iff.mp (folder_mem hnd), rfl⟩
      have := (List.subperm_of_subset hl.names hsub).length_le
      rw [List.length_map, List.length_map] at this
      exact this
    refine ⟨.list x, row, _, q1, q2, by rw [← ha.win rfl]; exact q6, info_wf hok.rootWf q1 q2 (table_wf (fun b => (ha.digest b).2) (fun f hf => ?_) ?_)⟩
    · exact hnames f.1 ((q4 f.1).mp (List.mem_map.mpr ⟨f, hf, rfl⟩))
    · generalize (10 : Nat) ^ 64 = a at hbig ⊢
      omega

/-- **C80, whatever laid the files out.**  Extract a product file, lay the files out, build and extract the new product file: nothing fails, the new file is recognized
as a product of the same class and version, and its sources are those of the first extraction, byte by byte, but for the table the build makes anew. -/
theorem C80_any_layout (types : List (Text × Text)) (C : Text → Option Class) (g : V8.FormObj.Lim) (e : V8.Root.Env) (c : Cls) (ver : Text)
    (ord : Text → List Nested.Entry → List Nested.Entry) (shuf : List Text → List Text) (nm : Val → Text) (n : Nat) (info : Info) (dir : V8.Tree.Dir) (file fu u : Text)
    (dr dh : List (List Val)) (hC : ClassesOk C) (hN : PlainNames C) (hE : e.x.E = envOf types C) (hy : e.y.E = e.x.E) (hp : e.y.p = e.x.p) (ha : e.y.auto = e.x.auto)
    (hv0 : e.x.valid [] = false) (hT : ∀ u, e.types u ≠ some "ConfigurationExtension".toList) (hsame : V8.Misc.checkVersion e.tool e.tool = .ok ())
    (hord : ∀ id l, (ord id l).Perm l) (hshuf : ∀ l, (shuf l).Perm l)
    (I : Inflater) (k : V8.Stage.Disk) (hz : ZlibOk I k.D) (ht : TimesOk k)
    (old : Bytes) (L : Folder) (fuel steps deep : Nat) (hold : unwrap I fuel steps deep old = .ok [L]) (hL : FolderOk L) (hdirs : DirsOk (view L))
    (hd : detect e (view L) = some (c, ver)) (hx : extractProduct e (handlers C g e.x e.y ver) c ver (view L) n = some (info, dir))
    (hok : ProductOk e c ver (view L) file fu u dr dh) (hin : InnerOk types C g e c ver (view L) nm dh) (hag : AgainOk C e c k L fu u dr dh)
    (win : Bool) (src : List (V8.Org.Item JT)) (hsrc : Found dir src) (packed : Dir × Text → Option (V8.Org.Content JT))
    (h2 : ∀ p n c, packed (p, n) = some c ↔ (p, n, c) ∈ src) :
    (∃ D, Saved win packed D) ∧ ∀ D, Saved win packed D → (∃ dir', Shows D [] dir') ∧
      ∀ dir', Shows D [] dir' →
        ∃ files, buildProduct e (fun v p => handlers C g e.x { e.y with prod := p } v) ord shuf file dir' = some (c, files) ∧ (∃ l, OnDisk l files) ∧
          (files.length < 2 ^ 64 → ∀ l, OnDisk l files → ∀ new, wrap k l = .ok new → new.length < 2 ^ 31 → ∀ fuel' steps' deep', 2 ^ 31 ≤ fuel' → 2 ≤ steps' →
            ∃ out, unwrap I fuel' steps' deep' new = .ok [out] ∧ detect e (view out) = some (c, ver) ∧
              ∃ dir2, extractProduct e (handlers C g e.x e.y ver) c ver (view out) n = some (info, dir2) ∧ SameSources c e.x.win dir dir2) := by
  obtain ⟨hD, hall⟩ := C68_any_layout types C g e c ver ord shuf nm n info dir file fu u dr dh hC hN hE hy hp ha hv0 hT hsame hord hshuf I k hz ht old L fuel steps deep hold hL hdirs hd hx hok hin
    win src hsrc packed h2
  refine ⟨hD, fun D hS => ⟨(hall D hS).1, fun dir' hs => ?_⟩⟩
  obtain ⟨files, b1, b2, b3⟩ := (hall D hS).2 dir' hs
  refine ⟨files, b1, b2, fun hlen l hl new hw hn fuel' steps' deep' hf hst => ?_⟩
  obtain ⟨out, o1, o2, o3, o4, o5⟩ := (b3 l hl).2 new hw hn fuel' steps' deep' hf hst
  exact ⟨out, o1, C80_product types C g e c ver (view L) (view out) nm n info dir file fu u dr dh hC hp hT hd hx hok hin (rebuilt hT hd hok hag hl hlen o2 o3 o4 o5)⟩

/-- **C80.**  `extract`, `build` and `extract` again, with everything in between (C68): the second extraction gives the sources of the first one. -/
theorem C80_extract_build_extract (types : List (Text × Text)) (C : Text → Option Class) (g : V8.FormObj.Lim) (e : V8.Root.Env) (c : Cls) (ver : Text)
    (ord : Text → List Nested.Entry → List Nested.Entry) (shuf : List Text → List Text) (nm : Val → Text) (n : Nat) (info : Info) (dir : V8.Tree.Dir) (file fu u : Text)
    (dr dh : List (List Val)) (hC : ClassesOk C) (hN : PlainNames C) (hE : e.x.E = envOf types C) (hy : e.y.E = e.x.E) (hp : e.y.p = e.x.p) (ha : e.y.auto = e.x.auto)
    (hv0 : e.x.valid [] = false) (hT : ∀ u, e.types u ≠ some "ConfigurationExtension".toList) (hsame : V8.Misc.checkVersion e.tool e.tool = .ok ())
    (hord : ∀ id l, (ord id l).Perm l) (hshuf : ∀ l, (shuf l).Perm l)
    (I : Inflater) (k : V8.Stage.Disk) (hz : ZlibOk I k.D) (ht : TimesOk k)
    (old : Bytes) (L : Folder) (fuel steps deep : Nat) (hold : unwrap I fuel steps deep old = .ok [L]) (hL : FolderOk L) (hdirs : DirsOk (view L))
    (hd : detect e (view L) = some (c, ver)) (hx : extractProduct e (handlers C g e.x e.y ver) c ver (view L) n = some (info, dir))
    (hok : ProductOk e c ver (view L) file fu u dr dh) (hin : InnerOk types C g e c ver (view L) nm dh) (hag : AgainOk C e c k L fu u dr dh)
    (s : V8.Org.Sys) (w w' : V8.Org.World JT) (src : List (V8.Org.Item JT)) (hsrc : Found dir src) (M : Dir → Text → List V8.Code.Node)
    (E : Dir → Text → V8.Areas.Elems JT) (hready : V8.Org.Ready namesOf s w src M E) (hun : V8.Org.Unpacked namesOf s w src w')
    (ls : List (Dir × Text)) (hls : V8.Org.Listing s w' ls) (areas : Nat) (hareas : ∀ i ∈ src, V8.Org.isCode i.2.1 = true → V8.Code.nodesDepth (M i.1 i.2.1) < areas) :
    ∃ packed, V8.Org.pack namesOf s w' areas ls = some packed ∧ (∃ D, Saved s.win packed D) ∧ ∀ D, Saved s.win packed D → (∃ dir', Shows D [] dir') ∧
      ∀ dir', Shows D [] dir' →
        ∃ files, buildProduct e (fun v p => handlers C g e.x { e.y with prod := p } v) ord shuf file dir' = some (c, files) ∧ (∃ l, OnDisk l files) ∧
          (files.length < 2 ^ 64 → ∀ l, OnDisk l files → ∀ new, wrap k l = .ok new → new.length < 2 ^ 31 → ∀ fuel' steps' deep', 2 ^ 31 ≤ fuel' → 2 ≤ steps' →
            ∃ out, unwrap I fuel' steps' deep' new = .ok [out] ∧ detect e (view out) = some (c, ver) ∧
              ∃ dir2, extractProduct e (handlers C g e.x e.y ver) c ver (view out) n = some (info, dir2) ∧ SameSources c e.x.win dir dir2) := by
  obtain ⟨packed, h1, h2⟩ := V8.Org.C66_folder_back namesOf s w w' src M E hready hun ls hls areas hareas
  exact ⟨packed, h1, C80_any_layout types C g e c ver ord shuf nm n info dir file fu u dr dh hC hN hE hy hp ha hv0 hT hsame hord hshuf I k hz ht old L fuel steps deep hold hL hdirs hd hx hok hin hag
    s.win src hsrc packed h2⟩

end V8.Pipe
