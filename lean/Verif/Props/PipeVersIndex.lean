import Verif.Props.Pipe
import Verif.Props.PipeLayoutsEx
import Verif.Props.VersIndexEx
/-
C76: extraction and build of a product with the organizer in between, with a version and an index.
-/
namespace V8.Pipe
open V8.Str V8.Brace V8.Enc V8.JsonText V8.Header
open V8.Object hiding Cls
open V8.Misc (Cls)
open V8.Tree hiding Dir
open V8.Store hiding Kind nodeOf Node
open V8.Code (Dir)
open V8.FormJson
open V8.Nested (Obj Entry)
open V8.Root V8.Stage V8.Whole
open V8.Zlib (Inflater storedInflater)

/-- **C76, versions and index.**  Extract a product file with the option `descent` and an index of the files to share, and build with this index and the same
version or any later one: the build can be done, and whatever order its tasks finish in, the new product file holds what C67 says. -/
theorem C76_with_version_and_index (types : List (Text × Text)) (C : Text → Option Class) (g : V8.FormObj.Lim) (e : V8.Root.Env) (c : Cls) (ver : Text)
    (ord : Text → List Nested.Entry → List Nested.Entry) (shuf : List Text → List Text) (nm : Val → Text) (n : Nat) (info : Info) (dir : V8.Tree.Dir) (file fu u : Text)
    (dr dh : List (List Val)) (hC : ClassesOk C) (hN : PlainNames C) (hE : e.x.E = envOf types C) (hy : e.y.E = e.x.E) (hp : e.y.p = e.x.p) (ha : e.y.auto = e.x.auto)
    (hv0 : e.x.valid [] = false) (hT : ∀ u, e.types u ≠ some "ConfigurationExtension".toList) (hsame : V8.Misc.checkVersion e.tool e.tool = .ok ())
    (hord : ∀ id l, (ord id l).Perm l) (hshuf : ∀ l, (shuf l).Perm l)
    (I : Inflater) (k : V8.Stage.Disk) (hz : ZlibOk I k.D) (ht : TimesOk k)
    (old : Bytes) (L : Folder) (fuel steps deep : Nat) (hold : unwrap I fuel steps deep old = .ok [L]) (hL : FolderOk L) (hdirs : DirsOk (view L))
    (hd : detect e (view L) = some (c, ver)) (hx : extractProduct e (handlers C g e.x e.y ver) c ver (view L) n = some (info, dir))
    (hok : ProductOk e c ver (view L) file fu u dr dh) (hin : InnerOk types C g e c ver (view L) nm dh)
    (cwd : Text → Option (List (Text × Bool))) (s : V8.Org.Sys) (idx : V8.Json.D) (d d' : Nat) (hdd : d ≤ d') (w w' : V8.Org.World JT) (src : List (V8.Org.Item JT)) (hsrc : Found dir src)
    (M : Dir → Text → List V8.Code.Node) (E : Dir → Text → V8.Areas.Elems JT) (hready : V8.Org.Ready namesOf s w src M E) (hidx : V8.VersIndex.IndexFit namesOf s idx src M E)
    (hown : V8.OrgIndex.NoOther idx src) (hfit : V8.Versions.Fit s d (V8.VersIndex.own idx src)) (hout : V8.Versions.AreasOutside s src M)
    (hun : V8.VersIndex.Unpacked namesOf s idx d w src w') (look : Dir → V8.Descent.Folder) (hlook : V8.Versions.Views s w' look)
    (ls : List (Dir × Option Text)) (hls : V8.Versions.Listing s w' ls) (areas : Nat)
    (hforms : ∀ i ∈ src, V8.Org.isElem i.2.1 = true → V8.Areas.areasOut namesOf (E i.1 i.2.1).tree [] (E i.1 i.2.1).data ≠ none)
    (hareas : ∀ i ∈ src, V8.Org.isCode i.2.1 = true → V8.Code.nodesDepth (M i.1 i.2.1) < areas) :
    (∃ packed, V8.VersIndex.Packed namesOf cwd s idx w' look ls d' areas packed) ∧ ∀ packed, V8.VersIndex.Packed namesOf cwd s idx w' look ls d' areas packed →
      (∃ D, Saved s.win packed D) ∧ ∀ D, Saved s.win packed D → (∃ dir', Shows D [] dir') ∧
      ∀ dir', Shows D [] dir' →
        ∃ files, buildProduct e (fun v p => handlers C g e.x { e.y with prod := p } v) ord shuf file dir' = some (c, files) ∧ (∃ l, OnDisk l files) ∧
          ∀ l, OnDisk l files → ((∀ s, stored k l = .ok s → (s.map (fun p => p.2.length + 4 * p.1.length + 800)).sum + 2000 < 2 ^ 31) → ∃ new, wrap k l = .ok new ∧ new.length < 2 ^ 31) ∧
            ∀ new, wrap k l = .ok new → new.length < 2 ^ 31 → ∀ fuel' steps' deep', 2 ^ 31 ≤ fuel' → 2 ≤ steps' →
              ∃ out, unwrap I fuel' steps' deep' new = .ok [out] ∧ (∀ m, (c ≠ .extension → m ≠ "versions".toList) → m ≠ "configinfo".toList →
                (m ∈ ownNames c u fu ∨ NestedNames C e c (view L) dh m → view out m = view L m) ∧
                (¬ (m ∈ ownNames c u fu ∨ NestedNames C e c (view L) dh m) → view out m = none)) ∧
              (c ≠ .extension → ¬ ("versions".toList ∈ ownNames c u fu ∨ NestedNames C e c (view L) dh "versions".toList) →
                ∃ names, names.Perm (files.map (·.1)) ∧ view out "versions".toList = some (.file (braceFile e.y.win (versionsTree e.rnd names))) ∧ ∀ m, m ∈ names ↔ view out m ≠ none) ∧
              (c ≠ .extension → ¬ ("configinfo".toList ∈ ownNames c u fu ∨ NestedNames C e c (view L) dh "configinfo".toList) → view out "configinfo".toList = none) ∧
              (c = .extension → ¬ ("configinfo".toList ∈ ownNames c u fu ∨ NestedNames C e c (view L) dh "configinfo".toList) →
                ∃ v row st b, Product.getAt (rootVal dr) [0, 1] = some v ∧ Product.getAt (rootVal dr) [1] = some (.list row) ∧ mapExcept (Stage.storedOf k) l = .ok st ∧ (∀ m, m ∈ st.map (·.1) ↔ view out m ≠ none) ∧
                  stamped k st (braceFile e.y.win (newInfo v row)) = some b ∧ view out "configinfo".toList = some (.file b)) := by
  refine ⟨((V8.VersIndex.C79_runs namesOf cwd s idx d w src M E hready hidx hown hfit hout hforms areas hareas).2 w' hun).2 look ls d' hlook hls hdd, fun packed hpk => ?_⟩
  have h2 := V8.VersIndex.C79_folder_back namesOf cwd s idx d w w' src M E hready hidx hown hfit hout hun d' hdd look hlook ls hls areas hareas packed hpk
  exact C68_any_layout types C g e c ver ord shuf nm n info dir file fu u dr dh hC hN hE hy hp ha hv0 hT hsame hord hshuf I k hz ht old L fuel steps deep hold hL hdirs hd hx hok hin
    s.win src hsrc packed h2


/-! ### an example -/

open V8.Json V8.Index
open V8.VersIndex (own IndexFit)

theorem xEntryOf (p : Dir) (n : Text) : V8.VersIndex.entryOf xIdx p n = if (p, n) = ([], "Configuration.app.bsl".toList) then some "common/app.bsl".toList else none := by
  unfold V8.VersIndex.entryOf
  rw [xAt]
  by_cases h : (p, n) = ([], "Configuration.app.bsl".toList)
  · rw [if_pos h, if_pos h]
    simp only
    rw [if_neg (by decide)]
  · rw [if_neg h, if_neg h]

theorem xEntry_some {p : Dir} {n e : Text} (h : V8.VersIndex.entryOf xIdx p n = some e) : (p, n) = ([], "Configuration.app.bsl".toList) ∧ e = "common/app.bsl".toList := by
  rw [xEntryOf] at h
  by_cases hk : (p, n) = ([], "Configuration.app.bsl".toList)
  · rw [if_pos hk] at h
    exact ⟨hk, (Option.some.inj h).symm⟩
  · rw [if_neg hk] at h
    cases h

theorem xNamed : V8.OrgIndex.named (xSys true).src.dropLast "common/app.bsl".toList = (["common".toList], "app.bsl".toList) := by decide +kernel

theorem xIndexFit {src : List (V8.Org.Item JT)} {E : Dir → Text → V8.Areas.Elems JT} (hk : ∀ i ∈ src, (i.1, i.2.1) ∈ xKeys) (hno : ∀ i ∈ src, V8.Org.isElem i.2.1 = false) :
    IndexFit namesOf (xSys true) xIdx src xM E := by
  have ok := xIndexOk (E := E) hk hno
  have hE : V8.Org.elemAreas namesOf (xSys true) E src = [] := by
    unfold V8.Org.elemAreas
    rw [List.filter_eq_nil_iff.mpr (fun i hi => by rw [hno i hi]; exact fun h => by cases h)]
    rfl
  refine ⟨ok.wf, ok.tidy, ok.srcNe, ok.srcPlain, ok.paths, ok.clean, ok.file, ok.way, ok.noWild, ?_, ?_, ?_, ?_, ?_⟩
  · intro i hi e he
    rw [(xEntry_some he).2, xNamed]
    decide +kernel
  · intro i hi j hj e e' he he' _
    have h1 := (xEntry_some he).1
    have h2 := (xEntry_some he').1
    rw [← h2] at h1
    injection h1 with h1 h2
    exact ⟨h1, h2⟩
  · intro i hi e he a ha
    rw [(xEntry_some he).2, xNamed, xAreas true src a ha]
    decide +kernel
  · intro i hi e he a ha
    rw [hE] at ha
    cases ha
  · intro i hi e he h
    rw [hno i hi] at h
    cases h

set_option maxRecDepth 20000 in
/-- a product file is extracted at version 7 with an index that moves the module of the configuration to a shared folder, and built with that index at version 9:
the module stands there without a version, and is in the new file as it was -/
example (rnd : Nat → Text) (ord : Text → List Nested.Entry → List Nested.Entry) (shuf : List Text → List Text) (hord : ∀ id l, (ord id l).Perm l)
    (hshuf : ∀ l, (shuf l).Perm l) (w : V8.Org.World JT) (cwd : Text → Option (List (Text × Bool))) :
    ∃ old L dir src w' look ls packed D dir' files, unwrap storedInflater (2 ^ 31) 2 1 old = .ok [L] ∧
      extractProduct (pE rnd) (handlers classOf xG xX xY "803".toList) .config "803".toList (view L) (0 + 1 + 1 + 1) = some (pInfo, dir) ∧ Found dir src ∧
      V8.VersIndex.Unpacked namesOf (xSys true) xIdx 7 w src w' ∧
      w' (["common".toList], "app.bsl".toList) = some (V8.Org.txt (xSys true) "#Область include_lib_util\n#КонецОбласти\n".toList) ∧
      V8.Versions.Views (xSys true) w' look ∧ V8.Versions.Listing (xSys true) w' ls ∧
      V8.VersIndex.Packed namesOf cwd (xSys true) xIdx w' look ls 9 5 packed ∧ Saved true packed D ∧ Shows D [] dir' ∧
      buildProduct (pE rnd) (fun v p => handlers classOf xG xX { xY with prod := p } v) ord shuf "f".toList dir' = some (.config, files) ∧ (∃ l, OnDisk l files) ∧
      ∀ l, OnDisk l files → ∀ new, wrap xDisk l = .ok new → new.length < 2 ^ 31 → ∃ out, unwrap storedInflater (2 ^ 31) 2 1 new = .ok [out] ∧
        view out (dot ['p'] "6".toList) = some (.file (utf8 pText)) := by
  obtain ⟨old, L, h1, h2, h3⟩ := wOld
  obtain ⟨dir, src, ⟨fs, s1, s2, s3, os, os1, os2, k0, k1, k2, k3, rfl⟩, hx, hsrc, hin, hno, hready⟩ := xReady rnd
  have hidx := xIndexFit (E := fun _ _ => ⟨[], fun _ => none, []⟩) (xKeys_src k0 k1 k2 k3 hsrc) hno
  have hfit : V8.Versions.Fit (xSys true) 7 (own xIdx src) := fit_of xKeys rfl (by decide)
    (fun i hi => xKeys_src k0 k1 k2 k3 hsrc i (V8.VersIndex.mem_own.mp hi).1) (by decide +kernel) (by decide +kernel) (by decide +kernel) (by decide +kernel) (by decide +kernel)
  have hforms : ∀ i ∈ src, V8.Org.isElem i.2.1 = true → V8.Areas.areasOut (V := JT) namesOf (⟨[], fun _ => none, []⟩ : V8.Areas.Elems JT).tree [] (⟨[], fun _ => none, []⟩ : V8.Areas.Elems JT).data ≠ none := fun i hi hc => by
    rw [hno i hi] at hc
    cases hc
  have hdepth : ∀ i ∈ src, V8.Org.isCode i.2.1 = true → V8.Code.nodesDepth (xM i.1 i.2.1) < 5 := fun i _ _ => by
    unfold xM
    by_cases h : i.1 = []
    · rw [if_pos h]; decide
    · rw [if_neg h]; decide
  obtain ⟨⟨w', hun⟩, hr⟩ := V8.VersIndex.C79_runs namesOf cwd (xSys true) xIdx 7 w src xM (fun _ _ => ⟨[], fun _ => none, []⟩) (hready true w _) hidx (xNoOther hin)
    hfit (xOutside src) hforms 5 hdepth
  obtain ⟨⟨look, ls, hlook, hls⟩, _⟩ := hr w' hun
  rw [← h3] at hx
  obtain ⟨⟨packed, hpk⟩, g0⟩ := C76_with_version_and_index metaTypes classOf xG (pE rnd) .config "803".toList ord shuf xNm _ pInfo _ "f".toList ['h'] ['p'] pRoot pDH
    C61_classes C68_names rfl rfl rfl rfl rfl C62_no_extension_type C62_same_version hord hshuf storedInflater xDisk tiny_ok xTimes old L (2 ^ 31) 2 1 h1 h2
    (by rw [h3]; exact xDirs)
    (by rw [h3]; exact pDetect rnd) hx (by rw [h3]; exact pProduct rnd _) (by rw [h3]; exact pInner rnd)
    cwd (xSys true) xIdx 7 9 (by decide) w w' src hsrc xM (fun _ _ => ⟨[], fun _ => none, []⟩) (hready true w _) hidx (xNoOther hin) hfit (xOutside src) hun look hlook ls hls 5 hforms hdepth
  obtain ⟨⟨D, hD⟩, g2⟩ := g0 packed hpk
  obtain ⟨⟨dir', hs⟩, g3⟩ := g2 D hD
  obtain ⟨files, f1, f2, f3⟩ := g3 dir' hs
  refine ⟨old, L, _, src, w', look, ls, packed, D, dir', files, h1, hx, hsrc, hun, ?_, hlook, hls, hpk, hD, hs, f1, f2, fun l hl new hnew hlen => ?_⟩
  · obtain ⟨i, hi, hp, hc, hn⟩ := hin
    obtain ⟨c, ho, hw⟩ := (V8.VersIndex.C79_where namesOf (xSys true) xIdx 7 w w' src xM (fun _ _ => ⟨[], fun _ => none, []⟩) (hready true w _) hidx hfit (xOutside src) hun).1 i hi
    unfold V8.VersIndex.place at hw
    rw [xEntryOf, hp, hn, if_pos rfl] at hw
    simp only at hw
    rw [xNamed] at hw
    rw [hw]
    rcases ho with ⟨_, h⟩ | ⟨h, _⟩ | ⟨h, _⟩
    · rw [h, hp, xM, if_pos rfl]
      have : (V8.Code.nodesOwn [.area "#Область include_lib_util\n".toList [.line "Перем А;\n".toList] "#КонецОбласти\n".toList]).flatten = "#Область include_lib_util\n#КонецОбласти\n".toList := by
        simp only [V8.Code.nodesOwn, V8.Code.Node.own]
        decide +kernel
      rw [this]
    · rw [hno i hi] at h
      cases h
    · rw [hc] at h
      cases h
  · obtain ⟨out, o1, o2, _⟩ := (f3 l hl).2 new hnew hlen (2 ^ 31) 2 1 (Nat.le_refl _) (Nat.le_refl _)
    refine ⟨out, o1, ?_⟩
    rw [(o2 _ (by decide) (by decide)).1 (.inl (by decide)), h3]
    exact pF5

end V8.Pipe
