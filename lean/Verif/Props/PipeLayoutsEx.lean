import Verif.Props.PipeLayouts
import Verif.Props.PipeEx
import Verif.Props.OrgIndexEx
/-
C76: the product of Verif/Props/PipeEx.lean, extracted at a version and built at a later one.
-/
namespace V8.Pipe
open V8.Str V8.Brace V8.Enc V8.JsonText V8.Object V8.Header V8.Nested V8.Root V8.Stage V8.Whole
open V8.Tree hiding Dir
open V8.Store hiding Kind nodeOf
open V8.Code (Dir)
open V8.Zlib (Inflater storedInflater)
open V8.Misc (Cls)
open V8.Descent (descentName stem ClearNames isFile)

/-! ### the names of a folder -/

/-- names that are in no other's way -/
def clearB (d : Nat) (n : Text) (m : Text) : Bool := decide (m = n) || !V8.Str.starts (stem n) m || !V8.Str.ends (V8.Descent.ext n) m || decide (m = descentName n d) ||
  (V8.Dec.parseInt ((split '.' m).dropLast.getLast?.getD [])).isNone || decide ((split '.' m).length ≠ (split '.' n).length + 1)

theorem clear_of {d : Nat} (hd : 1 ≤ d) {dir : V8.Descent.Folder} {n : Text} (h : ∀ p ∈ dir, clearB d n p.1 = true) : ClearNames dir n := by
  intro p hp h1 h2 h3 h4 h5 h6
  have := h p hp
  unfold clearB at this
  simp only [Bool.or_eq_true, decide_eq_true_eq, Bool.not_eq_true'] at this
  rcases this with ((((h | h) | h) | h) | h) | h
  · exact absurd h h2
  · rw [(V8.Descent.starts_iff _ _).mpr h3] at h
    cases h
  · rw [(V8.Descent.ends_iff _ _).mpr h4] at h
    cases h
  · exact ⟨d, hd, h⟩
  · exact absurd (Option.isNone_iff_eq_none.mp h) h6
  · exact absurd h5 h

/-- a folder whose names are among `ks` -/
theorem fit_of {s : V8.Org.Sys} {d : Nat} {l : List (V8.Org.Item JT)} (ks : List (Dir × Text)) (hs : s.deep = true) (hd : 1 ≤ d) (hl : ∀ i ∈ l, (i.1, i.2.1) ∈ ks)
    (h1 : ∀ x ∈ ks, '.' ∈ x.2) (h2 : ∀ x ∈ ks, ∀ y ∈ ks, x.1 = y.1 → V8.Org.isElem y.2 = false → x.2 ≠ descentName y.2 d)
    (h3 : ∀ x ∈ ks, ∀ y ∈ ks, ¬ x.1 ++ [x.2] <+: y.1 ∧ ¬ x.1 ++ [V8.Versions.stored d x.2] <+: y.1)
    (h4 : ∀ x ∈ ks, ∀ y ∈ ks, x.1 = y.1 → clearB d x.2 (V8.Versions.stored d y.2) = true)
    (h5 : ∀ x ∈ ks, ∀ y ∈ ks, x.1 = y.1 → V8.Org.isCode x.2 = true → clearB d (descentName x.2 d) (V8.Versions.stored d y.2) = true) : V8.Versions.Fit s d l := by
  have hst : ∀ p, ∀ q ∈ V8.Versions.storedNames d l p, ∃ y ∈ ks, p = y.1 ∧ q.1 = V8.Versions.stored d y.2 := by
    intro p q hq
    unfold V8.Versions.storedNames at hq
    obtain ⟨j, hj, rfl⟩ := List.mem_map.mp hq
    obtain ⟨hj, he⟩ := List.mem_filter.mp hj
    exact ⟨_, hl j hj, (of_decide_eq_true he).symm, rfl⟩
  constructor
  · exact hs
  · exact fun h0 => by omega
  · exact fun i hi => h1 _ (hl i hi)
  · exact fun i hi j hj e1 e2 e3 => absurd e3 (h2 _ (hl i hi) _ (hl j hj) e1 e2)
  · exact fun i hi j hj => h3 _ (hl i hi) _ (hl j hj)
  · intro i hi
    refine clear_of hd (fun p hp => ?_)
    obtain ⟨y, hy, h, e⟩ := hst _ p hp
    rw [e]
    exact h4 _ (hl i hi) y hy h
  · intro i hi hc
    refine clear_of hd (fun p hp => ?_)
    obtain ⟨y, hy, h, e⟩ := hst _ p hp
    rw [e]
    exact h5 _ (hl i hi) y hy h hc

/-! ### the names of the example -/

/-- the paths the files of the example may have -/
def xKeys : List (Dir × Text) :=
  ((sourceNames .config).filter (fun n => n ≠ "Заставка".toList)).map (fun n => ([], n)) ++ (sources xKS).map (fun n => ([xS, xIS.name], n)) ++
    (sources xKT).map (fun n => ([xS, xIS.name, xT, xIT.name], n)) ++ (sources xKC).map (fun n => ([xS, xIS.name, xT, xIT.name, xC, xIC.name], n))

theorem in_top_path {src s1 s2 s3 : List (Place Bytes)} {p : Dir} {n : Text} {b : Bytes} (h : InDir (xTop src s1 s2 s3) p n b) :
    p = [] ∧ (n, some b) ∈ src ∨ p = [xS, xIS.name] ∧ (n, some b) ∈ s1 ∨ p = [xS, xIS.name, xT, xIT.name] ∧ (n, some b) ∈ s2 ∨
      p = [xS, xIS.name, xT, xIT.name, xC, xIC.name] ∧ (n, some b) ∈ s3 := by
  rcases in_mk h with h | ⟨_, _, _, p1, rfl, hm, h⟩
  · exact .inl h
  rw [below, List.mem_singleton] at hm
  simp only [Prod.mk.injEq] at hm
  obtain ⟨rfl, rfl, rfl⟩ := hm
  rcases in_mk h with ⟨rfl, g⟩ | ⟨_, _, _, p2, rfl, hm, h⟩
  · exact .inr (.inl ⟨rfl, g⟩)
  rw [below, List.mem_singleton] at hm
  simp only [Prod.mk.injEq] at hm
  obtain ⟨rfl, rfl, rfl⟩ := hm
  rcases in_mk h with ⟨rfl, g⟩ | ⟨_, _, _, p2, rfl, hm, h⟩
  · exact .inr (.inr (.inl ⟨rfl, g⟩))
  rw [below, List.mem_singleton] at hm
  simp only [Prod.mk.injEq] at hm
  obtain ⟨rfl, rfl, rfl⟩ := hm
  rcases in_mk h with ⟨rfl, g⟩ | ⟨_, _, _, p2, rfl, hm, h⟩
  · exact .inr (.inr (.inr ⟨rfl, g⟩))
  · cases hm

theorem xF_no_image : xF (dot ['p'] "2".toList) = none := by
  unfold xF
  rw [if_neg (by decide), if_neg (by decide), if_neg (by decide), if_neg (by decide)]
  unfold pF
  rw [if_neg (by decide), if_neg (by decide), if_neg (by decide), if_neg (by decide), if_neg (by decide)]

theorem image_none {F : Text → Option Store.Node} {u n sfx : Text} {r : List (Place JT) × List (Place Bytes)} (hF : F (dot u sfx) = none) (h : imagesOut F u (some (n, sfx)) = some r) :
    ∀ m b, (m, some b) ∉ r.2 := by
  intro m b hm
  rw [imagesOut, fileAt, hF] at h
  simp only [V8.Embed.imageOut, Option.bind_some, Option.map_some, Option.some.injEq] at h
  subst h
  simp only [List.mem_singleton, Prod.mk.injEq] at hm
  cases hm.2

/-- the product has no splash screen -/
theorem no_splash {rnd : Nat → Text} {os : List Obj} {src : List (Place Bytes)} (h : rootOut (pE rnd) .config "803".toList xF = some (pInfo, os, src)) (b : Bytes) :
    ("Заставка".toList, some b) ∉ src := by
  intro hm
  obtain ⟨root, fu, v, hd, h', h1, b', paths, t, _, _, _, _, hi, _, hb, _, he, rfl⟩ := rootOut_some h
  obtain ⟨front, other, compat, vb, parts, h1, h2, h3, h4, h5, rfl⟩ := besideOut_some hb
  cases h4
  rw [show kindOf Cls.config = config from rfl, show directives .config "803".toList = false by decide +kernel] at h5
  unfold V8.Root.partsOut at h5
  simp only [Option.bind_eq_some_iff, Option.map_eq_some_iff] at h5
  obtain ⟨a, ha, b2, hb2, f, hf, c, hc, i, hi, rfl⟩ := h5
  simp only [List.append_nil] at hm
  have no : ∀ l : List Text, "Заставка".toList ∉ l → ∀ q : List (Place Bytes), q.map (·.1) = l → ("Заставка".toList, some b) ∉ q :=
    fun l hl q e hq => hl (e ▸ List.mem_map.mpr ⟨_, hq, rfl⟩)
  rcases List.mem_append.mp hm with hm | hm
  · rcases List.mem_append.mp hm with hm | hm
    · rcases List.mem_append.mp hm with hm | hm
      · rcases List.mem_append.mp hm with hm | hm
        · exact no _ (by decide +kernel) _ (helpOut_shape ha).2.1 hm
        · exact image_none xF_no_image hb2 _ _ hm
      · exact no _ (by decide +kernel) _ (filesOut_shape hf) hm
    · exact no _ (by decide +kernel) _ (codesOut_shape hc).2.1 hm
  · simp only [List.mem_cons, Prod.mk.injEq, List.not_mem_nil, or_false] at hm
    exact absurd hm.1 (by decide +kernel)

theorem xKeys_src {rnd : Nat → Text} {fs s1 s2 s3 : List (Place Bytes)} {os os1 os2 : List Obj} {src : List (V8.Org.Item JT)} (h0 : rootOut (pE rnd) .config "803".toList xF = some (pInfo, os, fs))
    (h1 : extractAll xX xKS (some "803".toList) xF ['a'] = some (xIS, os1, s1)) (h2 : extractAll xX xKT (some "803".toList) xF ['b'] = some (xIT, os2, s2))
    (h3 : innerAll xX xKC xF (xCmd xHC) = some (xIC, s3)) (hs : Found (xTop fs s1 s2 s3) src) : ∀ i ∈ src, (i.1, i.2.1) ∈ xKeys := by
  rintro ⟨p, n, c⟩ hi
  obtain ⟨b, hb, _⟩ := (hs p n c).mp hi
  unfold xKeys
  have key : ∀ (d : Dir) (l : List Text) (q : List (Place Bytes)), q.map (·.1) = l → (n, some b) ∈ q → (d, n) ∈ l.map (fun n => (d, n)) := by
    intro d l q e hq
    exact List.mem_map.mpr ⟨n, e ▸ List.mem_map.mpr ⟨_, hq, rfl⟩, rfl⟩
  rcases in_top_path hb with ⟨rfl, h⟩ | ⟨rfl, h⟩ | ⟨rfl, h⟩ | ⟨rfl, h⟩
  · refine List.mem_append_left _ (List.mem_append_left _ (List.mem_append_left _ (List.mem_map.mpr ⟨n, List.mem_filter.mpr ⟨?_, ?_⟩, rfl⟩)))
    · rw [← root_src h0]
      exact List.mem_map.mpr ⟨_, h, rfl⟩
    · rw [decide_eq_true_eq]
      rintro rfl
      exact no_splash h0 b h
  · exact List.mem_append_left _ (List.mem_append_left _ (List.mem_append_right _ (key _ _ _ (extractAll_src h1).1 h)))
  · exact List.mem_append_left _ (List.mem_append_right _ (key _ _ _ (extractAll_src h2).1 h))
  · exact List.mem_append_right _ (key _ _ _ (innerAll_src h3) h)

theorem xFit {rnd : Nat → Text} {fs s1 s2 s3 : List (Place Bytes)} {os os1 os2 : List Obj} {src : List (V8.Org.Item JT)} (h0 : rootOut (pE rnd) .config "803".toList xF = some (pInfo, os, fs))
    (h1 : extractAll xX xKS (some "803".toList) xF ['a'] = some (xIS, os1, s1)) (h2 : extractAll xX xKT (some "803".toList) xF ['b'] = some (xIT, os2, s2))
    (h3 : innerAll xX xKC xF (xCmd xHC) = some (xIC, s3)) (hs : Found (xTop fs s1 s2 s3) src) : V8.Versions.Fit (xSys true) 7 src :=
  fit_of xKeys rfl (by decide) (xKeys_src h0 h1 h2 h3 hs) (by decide +kernel) (by decide +kernel) (by decide +kernel) (by decide +kernel) (by decide +kernel)

/-- the area of the example is outside the folder of the sources -/
theorem xOutside (src : List (V8.Org.Item JT)) : V8.Versions.AreasOutside (xSys true) src xM := by
  intro a ha
  rw [xAreas true src a ha]
  decide +kernel

set_option maxRecDepth 20000 in
/-- a product file is extracted at version 7 and the sources are built at version 9: the module of the configuration, whose area was in a file of its own in
between, is in the new file as it was -/
example (rnd : Nat → Text) (ord : Text → List Nested.Entry → List Nested.Entry) (shuf : List Text → List Text) (hord : ∀ id l, (ord id l).Perm l)
    (hshuf : ∀ l, (shuf l).Perm l) (w : V8.Org.World JT) : ∃ old L dir src w' look packed D dir' files, unwrap storedInflater (2 ^ 31) 2 1 old = .ok [L] ∧
      extractProduct (pE rnd) (handlers classOf xG xX xY "803".toList) .config "803".toList (view L) (0 + 1 + 1 + 1) = some (pInfo, dir) ∧ Found dir src ∧
      V8.Versions.Unpacked namesOf (xSys true) 7 w src w' ∧ V8.Versions.Views (xSys true) w' look ∧
      V8.Versions.pack namesOf (xSys true) w' look 9 5 (src.map (fun i => (i.1, some i.2.1))) = some packed ∧ Saved true packed D ∧ Shows D [] dir' ∧
      buildProduct (pE rnd) (fun v p => handlers classOf xG xX { xY with prod := p } v) ord shuf "f".toList dir' = some (.config, files) ∧ (∃ l, OnDisk l files) ∧
      ∀ l, OnDisk l files → ∀ new, wrap xDisk l = .ok new → new.length < 2 ^ 31 → ∃ out, unwrap storedInflater (2 ^ 31) 2 1 new = .ok [out] ∧
        view out (dot ['p'] "6".toList) = some (.file (utf8 pText)) := by
  obtain ⟨old, L, h1, h2, h3⟩ := wOld
  obtain ⟨dir, src, ⟨fs, s1, s2, s3, os, os1, os2, k0, k1, k2, k3, rfl⟩, hx, hsrc, hin, hno, hready⟩ := xReady rnd
  have hfit := xFit k0 k1 k2 k3 hsrc
  obtain ⟨w', look, hun, hlook, hlist⟩ := V8.Versions.C75_runs namesOf (xSys true) 7 w src xM (fun _ _ => ⟨[], fun _ => none, []⟩) (hready true w _) hfit (xOutside src) (fun i hi hc => by
    rw [hno i hi] at hc
    cases hc)
  rw [← h3] at hx
  obtain ⟨packed, g1, ⟨D, hD⟩, g2⟩ := C76_with_version metaTypes classOf xG (pE rnd) .config "803".toList ord shuf xNm _ pInfo _ "f".toList ['h'] ['p'] pRoot pDH
    C61_classes C68_names rfl rfl rfl rfl rfl C62_no_extension_type C62_same_version hord hshuf storedInflater xDisk tiny_ok xTimes old L (2 ^ 31) 2 1 h1 h2
    (by rw [h3]; exact xDirs)
    (by rw [h3]; exact pDetect rnd) hx (by rw [h3]; exact pProduct rnd _) (by rw [h3]; exact pInner rnd)
    (xSys true) 7 9 (by decide) w w' src hsrc xM (fun _ _ => ⟨[], fun _ => none, []⟩) (hready true w _) hfit (xOutside src) hun look hlook _ hlist 5 (fun i _ _ => by
      unfold xM
      by_cases h : i.1 = []
      · rw [if_pos h]; decide
      · rw [if_neg h]; decide)
  obtain ⟨⟨dir', hs⟩, g3⟩ := g2 D hD
  obtain ⟨files, f1, f2, f3⟩ := g3 dir' hs
  refine ⟨old, L, _, src, w', look, packed, D, dir', files, h1, hx, hsrc, hun, hlook, g1, hD, hs, f1, f2, fun l hl new hnew hlen => ?_⟩
  obtain ⟨out, o1, o2, _⟩ := (f3 l hl).2 new hnew hlen (2 ^ 31) 2 1 (Nat.le_refl _) (Nat.le_refl _)
  refine ⟨out, o1, ?_⟩
  rw [(o2 _ (by decide) (by decide)).1 (.inl (by decide)), h3]
  exact pF5

/-! ### with an index -/

open V8.Json V8.Index

/-- the index: the module of the configuration is shared -/
def xIdx : D := .cons "Configuration.app.bsl".toList (.str "common/app.bsl".toList) .nil

theorem xIdx_wf : xIdx.WF := by
  simp only [xIdx, D.WF, J.WF, and_true]
  decide +kernel

theorem xEntries : V8.OrgIndex.entriesOf xIdx = [(["Configuration.app.bsl".toList], "common/app.bsl".toList)] := by decide +kernel

theorem xAt_one : (J.obj xIdx).at ["Configuration.app.bsl".toList] = some (.str "common/app.bsl".toList) :=
  ((V8.OrgIndex.mem_entries xIdx xIdx_wf _ _).mp (by rw [xEntries]; exact List.mem_cons_self)).2.2.2

theorem xAt_other {k : Text} {q : List Text} (h : k :: q ≠ ["Configuration.app.bsl".toList]) : (J.obj xIdx).at (k :: q) = none := by
  rw [at_obj]
  by_cases hk : k = "Configuration.app.bsl".toList
  · rw [hk] at h ⊢
    rw [show xIdx.get "Configuration.app.bsl".toList = some (.str "common/app.bsl".toList) by rfl, Option.bind_some]
    cases q with
    | nil => exact absurd rfl h
    | cons a q => exact at_leaf _ (fun d => by intro h; cases h) _ _
  · rw [show xIdx.get k = none by rw [D.get_none]; rw [show xIdx.keys = ["Configuration.app.bsl".toList] from rfl, List.mem_singleton]; exact hk]
    rfl

theorem app_eq (p : Dir) (n : Text) : p ++ [n] = ["Configuration.app.bsl".toList] ↔ (p, n) = ([], "Configuration.app.bsl".toList) := by
  constructor
  · intro h
    obtain ⟨rfl, h2⟩ := List.append_inj' (s₂ := []) (t₂ := [_]) h rfl
    rw [show n = "Configuration.app.bsl".toList by injection h2]
  · intro h
    injection h with h1 h2
    rw [h1, h2]
    rfl

theorem xAt (p : Dir) (n : Text) : (J.obj xIdx).at (p ++ [n]) = if (p, n) = ([], "Configuration.app.bsl".toList) then some (.str "common/app.bsl".toList) else none := by
  by_cases h : (p, n) = ([], "Configuration.app.bsl".toList)
  · rw [if_pos h, (app_eq p n).mpr h]
    exact xAt_one
  · rw [if_neg h]
    cases e : p ++ [n] with
    | nil => exact absurd e (by cases p <;> simp)
    | cons a q => exact xAt_other (fun h' => h ((app_eq p n).mp (e.trans h')))

/-- where the files belong -/
def xT' (x : Dir × Text) : V8.Org.File := if x = ([], "Configuration.app.bsl".toList) then (["p".toList, "common".toList], "app.bsl".toList) else (["p".toList, "src".toList] ++ x.1, x.2)

theorem xTarget (p : Dir) (n : Text) : V8.OrgIndex.target (xSys false).src xIdx p n = xT' (p, n) := by
  unfold xT'
  by_cases h : (p, n) = ([], "Configuration.app.bsl".toList)
  · rw [if_pos h]
    injection h with h1 h2
    rw [h1, h2, V8.OrgIndex.target_named (e := "common/app.bsl".toList) (by rw [xAt, if_pos rfl]) (by decide)]
    decide +kernel
  · rw [if_neg h]
    unfold V8.OrgIndex.target
    rw [xAt, if_neg h]
    rfl

theorem xIndexOk {src : List (V8.Org.Item JT)} {E : Dir → Text → V8.Areas.Elems JT} (hk : ∀ i ∈ src, (i.1, i.2.1) ∈ xKeys) (hno : ∀ i ∈ src, V8.Org.isElem i.2.1 = false) :
    V8.OrgIndex.IndexOk namesOf (xSys false) xIdx src xM E := by
  have hE : V8.Org.elemAreas namesOf (xSys false) E src = [] := by
    unfold V8.Org.elemAreas
    rw [List.filter_eq_nil_iff.mpr (fun i hi => by rw [hno i hi]; exact fun h => by cases h)]
    rfl
  refine ⟨rfl, xIdx_wf, ?_, by decide, ?_, ?_, ?_, ?_, ?_, ?_, ?_, ?_, ?_, ?_, ?_⟩
  · simp only [xIdx, V8.OrgIndex.Tidy, V8.OrgIndex.TidyV, and_true]
    decide +kernel
  · intro c hc
    have : ∀ c ∈ (xSys false).src, ('/' ∉ c && c ≠ [] && c ≠ ".".toList && c ≠ "..".toList) = true := by decide +kernel
    exact V8.OrgIndex.Ex.plain_dec c (this c hc)
  · intro i hi
    have : ∀ x ∈ xKeys, (∀ c ∈ x.1, ('/' ∉ c && c ≠ [] && c ≠ ".".toList && c ≠ "..".toList) = true) ∧ V8.Index.areasKey ∉ x.1 ++ [x.2] := by decide +kernel
    have := this _ (hk i hi)
    exact ⟨fun c hc => V8.OrgIndex.Ex.plain_dec c (this.1 c hc), this.2⟩
  · intro q k x h1 h2 h3
    rw [xAt] at h2
    by_cases h : (q, k) = ([], "Configuration.app.bsl".toList)
    · rw [if_pos h] at h2
      cases h2
      exact ⟨by decide +kernel, V8.OrgIndex.Ex.plain_dec _ (by decide +kernel)⟩
    · rw [if_neg h] at h2
      cases h2
  · intro i hi v hv
    rw [xAt] at hv
    by_cases h : (i.1, i.2.1) = ([], "Configuration.app.bsl".toList)
    · rw [if_pos h] at hv
      cases hv
      exact .inr ⟨_, rfl⟩
    · rw [if_neg h] at hv
      cases hv
  · intro i hi q hq
    cases q with
    | nil => exact .inr ⟨_, at_nil _⟩
    | cons a q =>
      left
      have h1 : a :: q ≠ ["Configuration.app.bsl".toList] := by
        intro h
        have : ∀ x ∈ xKeys, ¬ ["Configuration.app.bsl".toList] <+: x.1 := by decide +kernel
        exact this _ (hk i hi) (h ▸ hq)
      exact xAt_other h1
  · intro i hi
    rw [xAt, if_neg (fun h => absurd (congrArg Prod.snd h) (show ['*'] ≠ "Configuration.app.bsl".toList by decide))]
  · intro i hi
    rw [xTarget]
    have : ∀ x ∈ xKeys, xT' x = ((xSys false).src ++ x.1, x.2) ∨ ¬ (xSys false).src <+: (xT' x).1 := by decide +kernel
    exact this _ (hk i hi)
  · intro i hi j hj ht
    rw [xTarget, xTarget] at ht
    have : ∀ x ∈ xKeys, ∀ y ∈ xKeys, xT' x = xT' y → x.1 = y.1 ∧ x.2 = y.2 := by decide +kernel
    exact this _ (hk i hi) _ (hk j hj) ht
  · intro i hi a ha
    rw [xTarget, xAreas false src a ha]
    have : ∀ x ∈ xKeys, xT' x ≠ (xArea false).1 := by decide +kernel
    exact this _ (hk i hi)
  · intro i hi a ha
    rw [hE] at ha
    cases ha
  · intro i hi h
    rw [hno i hi] at h
    cases h

theorem xNoOther {src : List (V8.Org.Item JT)} (hin : ∃ i ∈ src, i.1 = [] ∧ V8.Org.isCode i.2.1 = true ∧ i.2.1 = "Configuration.app.bsl".toList) : V8.OrgIndex.NoOther xIdx src := by
  intro q k e h1 h2 h3
  rw [xAt] at h2
  obtain ⟨⟨p, n, c⟩, hi, hp, _, hn⟩ := hin
  simp only at hp hn
  by_cases h : (q, k) = ([], "Configuration.app.bsl".toList)
  · injection h with h4 h5
    rw [h4, h5]
    rw [hp, hn] at hi
    exact ⟨c, hi⟩
  · rw [if_neg h] at h2
    cases h2

set_option maxRecDepth 20000 in
/-- a product file is extracted with an index that moves the module of the configuration to a folder that is shared, and built with that index: the module is
in the new file as it was -/
example (rnd : Nat → Text) (ord : Text → List Nested.Entry → List Nested.Entry) (shuf : List Text → List Text) (hord : ∀ id l, (ord id l).Perm l)
    (hshuf : ∀ l, (shuf l).Perm l) (w : V8.Org.World JT) (cwd : Text → Option (List (Text × Bool))) : ∃ old L dir src w' ls packed D dir' files, unwrap storedInflater (2 ^ 31) 2 1 old = .ok [L] ∧
      extractProduct (pE rnd) (handlers classOf xG xX xY "803".toList) .config "803".toList (view L) (0 + 1 + 1 + 1) = some (pInfo, dir) ∧ Found dir src ∧
      V8.OrgIndex.Unpacked namesOf (xSys false) xIdx w src w' ∧ w' (["p".toList, "src".toList], "Configuration.app.bsl".toList) = none ∧
      w' (["p".toList, "common".toList], "app.bsl".toList) = some (V8.Org.txt (xSys false) "#Область include_lib_util\n#КонецОбласти\n".toList) ∧ V8.Org.Listing (xSys false) w' ls ∧
      V8.OrgIndex.Packed namesOf cwd (xSys false) xIdx w' ls 5 packed ∧ Saved true packed D ∧ Shows D [] dir' ∧
      buildProduct (pE rnd) (fun v p => handlers classOf xG xX { xY with prod := p } v) ord shuf "f".toList dir' = some (.config, files) ∧ (∃ l, OnDisk l files) ∧
      ∀ l, OnDisk l files → ∀ new, wrap xDisk l = .ok new → new.length < 2 ^ 31 → ∃ out, unwrap storedInflater (2 ^ 31) 2 1 new = .ok [out] ∧
        view out (dot ['p'] "6".toList) = some (.file (utf8 pText)) := by
  obtain ⟨old, L, h1, h2, h3⟩ := wOld
  obtain ⟨dir, src, ⟨fs, s1, s2, s3, os, os1, os2, k0, k1, k2, k3, rfl⟩, hx, hsrc, hin, hno, hready⟩ := xReady rnd
  have hidx := xIndexOk (E := fun _ _ => ⟨[], fun _ => none, []⟩) (xKeys_src k0 k1 k2 k3 hsrc) hno
  have hforms : ∀ i ∈ src, V8.Org.isElem i.2.1 = true → V8.Areas.areasOut (V := JT) namesOf (⟨[], fun _ => none, []⟩ : V8.Areas.Elems JT).tree [] (⟨[], fun _ => none, []⟩ : V8.Areas.Elems JT).data ≠ none := fun i hi hc => by
    rw [hno i hi] at hc
    cases hc
  have hdepth : ∀ i ∈ src, V8.Org.isCode i.2.1 = true → V8.Code.nodesDepth (xM i.1 i.2.1) < 5 := fun i _ _ => by
    unfold xM
    by_cases h : i.1 = []
    · rw [if_pos h]; decide
    · rw [if_neg h]; decide
  obtain ⟨⟨w', hun⟩, hr⟩ := V8.OrgIndex.C74_runs namesOf cwd (xSys false) xIdx w src xM (fun _ _ => ⟨[], fun _ => none, []⟩) (hready false w _) hidx (xNoOther hin) hforms 5 hdepth
  obtain ⟨⟨ls, hls⟩, _⟩ := hr w' hun
  rw [← h3] at hx
  obtain ⟨⟨packed, hpk⟩, g0⟩ := C76_with_index metaTypes classOf xG (pE rnd) .config "803".toList ord shuf xNm _ pInfo _ "f".toList ['h'] ['p'] pRoot pDH
    C61_classes C68_names rfl rfl rfl rfl rfl C62_no_extension_type C62_same_version hord hshuf storedInflater xDisk tiny_ok xTimes old L (2 ^ 31) 2 1 h1 h2
    (by rw [h3]; exact xDirs)
    (by rw [h3]; exact pDetect rnd) hx (by rw [h3]; exact pProduct rnd _) (by rw [h3]; exact pInner rnd)
    cwd (xSys false) xIdx w w' src hsrc xM (fun _ _ => ⟨[], fun _ => none, []⟩) (hready false w _) hidx (xNoOther hin) hun ls hls 5 hforms hdepth
  obtain ⟨⟨D, hD⟩, g2⟩ := g0 packed hpk
  obtain ⟨⟨dir', hs⟩, g3⟩ := g2 D hD
  obtain ⟨files, f1, f2, f3⟩ := g3 dir' hs
  refine ⟨old, L, _, src, w', ls, packed, D, dir', files, h1, hx, hsrc, hun, ?_, ?_, hls, hpk, hD, hs, f1, f2, fun l hl new hnew hlen => ?_⟩
  · refine Classical.byContradiction (fun hn => ?_)
    obtain ⟨c, hc, ht⟩ := (V8.OrgIndex.laid (hready false w (fun _ _ => ⟨[], fun _ => none, []⟩)) hidx hun).only [] "Configuration.app.bsl".toList (by rw [List.append_nil]; exact hn)
    rw [xTarget] at ht
    exact absurd ht (by decide)
  · obtain ⟨i, hi, hp, hc, hn⟩ := hin
    obtain ⟨c, ho, hw⟩ := V8.OrgIndex.C74_where namesOf (xSys false) xIdx w w' src xM (fun _ _ => ⟨[], fun _ => none, []⟩) (hready false w _) hidx hun i hi
    rw [xTarget, hp, hn, show xT' ([], "Configuration.app.bsl".toList) = (["p".toList, "common".toList], "app.bsl".toList) by decide] at hw
    rw [hw]
    rcases ho with ⟨_, h⟩ | ⟨h, _⟩ | ⟨h, _⟩
    · rw [h, hp, xM, if_pos rfl]
      have : (V8.Code.nodesOwn [.area "#Область include_lib_util\n".toList [.line "Перем А;\n".toList] "#КонецОбласти\n".toList]).flatten = "#Область include_lib_util\n#КонецОбласти\n".toList := by
        simp only [V8.Code.nodesOwn, V8.Code.Node.own]
        decide +kernel
      rw [this]
    · rw [hno i hi] at h
      cases h
    · rw [hc] at h
      cases h
  · obtain ⟨out, o1, o2, _⟩ := (f3 l hl).2 new hnew hlen (2 ^ 31) 2 1 (Nat.le_refl _) (Nat.le_refl _)
    refine ⟨out, o1, ?_⟩
    rw [(o2 _ (by decide) (by decide)).1 (.inl (by decide)), h3]
    exact pF5

end V8.Pipe
