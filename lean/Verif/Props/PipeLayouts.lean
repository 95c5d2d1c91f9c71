import Verif.Props.Pipe
import Verif.Props.VersionsNeg
import Verif.Props.OrgStar
/-
C76: extraction and build of a product with the organizer in between, with a version or with an index.
-/
namespace V8.Pipe
open V8.Str V8.Brace V8.Enc V8.JsonText V8.Header
open V8.Object hiding Cls
open V8.Misc (Cls)
open V8.Tree hiding Dir
open V8.Store hiding Kind nodeOf Node
open V8.Code (Dir)
open V8.FormJson
open V8.Nested (Obj Entry)
open V8.Root V8.Stage V8.Whole
open V8.Zlib (Inflater)

/-- **C76, versions.**  Extract a product file with the option `descent` and build the sources with the same version or any later one.  The organizer works in
whatever order its tasks look at the folder and write; the build does not fail, and the new product file holds what C67 says. -/
theorem C76_with_version (types : List (Text × Text)) (C : Text → Option Class) (g : V8.FormObj.Lim) (e : V8.Root.Env) (c : Cls) (ver : Text)
    (ord : Text → List Nested.Entry → List Nested.Entry) (shuf : List Text → List Text) (nm : Val → Text) (n : Nat) (info : Info) (dir : V8.Tree.Dir) (file fu u : Text)
    (dr dh : List (List Val)) (hC : ClassesOk C) (hN : PlainNames C) (hE : e.x.E = envOf types C) (hy : e.y.E = e.x.E) (hp : e.y.p = e.x.p) (ha : e.y.auto = e.x.auto)
    (hv0 : e.x.valid [] = false) (hT : ∀ u, e.types u ≠ some "ConfigurationExtension".toList) (hsame : V8.Misc.checkVersion e.tool e.tool = .ok ())
    (hord : ∀ id l, (ord id l).Perm l) (hshuf : ∀ l, (shuf l).Perm l)
    (I : Inflater) (k : V8.Stage.Disk) (hz : ZlibOk I k.D) (ht : TimesOk k)
    (old : Bytes) (L : Folder) (fuel steps deep : Nat) (hold : unwrap I fuel steps deep old = .ok [L]) (hL : FolderOk L) (hdirs : DirsOk (view L))
    (hd : detect e (view L) = some (c, ver)) (hx : extractProduct e (handlers C g e.x e.y ver) c ver (view L) n = some (info, dir))
    (hok : ProductOk e c ver (view L) file fu u dr dh) (hin : InnerOk types C g e c ver (view L) nm dh)
    (s : V8.Org.Sys) (d d' : Nat) (hdd : d ≤ d') (w w' : V8.Org.World JT) (src : List (V8.Org.Item JT)) (hsrc : Found dir src) (M : Dir → Text → List V8.Code.Node)
    (E : Dir → Text → V8.Areas.Elems JT) (hready : V8.Org.Ready namesOf s w src M E) (hfit : V8.Versions.Fit s d src) (hout : V8.Versions.AreasOutside s src M)
    (hun : V8.Versions.Unpacked namesOf s d w src w') (look : Dir → V8.Descent.Folder) (hlook : V8.Versions.Views s w' look)
    (ls : List (Dir × Option Text)) (hls : V8.Versions.Listing s w' ls) (areas : Nat) (hareas : ∀ i ∈ src, V8.Org.isCode i.2.1 = true → V8.Code.nodesDepth (M i.1 i.2.1) < areas) :
    ∃ packed, V8.Versions.pack namesOf s w' look d' areas ls = some packed ∧ (∃ D, Saved s.win packed D) ∧ ∀ D, Saved s.win packed D → (∃ dir', Shows D [] dir') ∧
      ∀ dir', Shows D [] dir' →
        ∃ files, buildProduct e (fun v p => handlers C g e.x { e.y with prod := p } v) ord shuf file dir' = some (c, files) ∧ (∃ l, OnDisk l files) ∧
          ∀ l, OnDisk l files → ((∀ s, stored k l = .ok s → (s.map (fun p => p.2.length + 4 * p.1.length + 800)).sum + 2000 < 2 ^ 31) → ∃ new, wrap k l = .ok new ∧ new.length < 2 ^ 31) ∧
            ∀ new, wrap k l = .ok new → new.length < 2 ^ 31 → ∀ fuel' steps' deep', 2 ^ 31 ≤ fuel' → 2 ≤ steps' →
              ∃ out, unwrap I fuel' steps' deep' new = .ok [out] ∧ (∀ m, (c ≠ .extension → m ≠ "versions".toList) → m ≠ "configinfo".toList →
                (m ∈ ownNames c u fu ∨ NestedNames C e c (view L) dh m → view out m = view L m) ∧
                (¬ (m ∈ ownNames c u fu ∨ NestedNames C e c (view L) dh m) → view out m = none)) ∧
              (c ≠ .extension → ¬ ("versions".toList ∈ ownNames c u fu ∨ NestedNames C e c (view L) dh "versions".toList) →
                ∃ names, names.Perm (files.map (·.1)) ∧ view out "versions".toList = some (.file (braceFile e.y.win (versionsTree e.rnd names))) ∧ ∀ m, m ∈ names ↔ view out m ≠ none) ∧
              (c ≠ .extension → ¬ ("configinfo".toList ∈ ownNames c u fu ∨ NestedNames C e c (view L) dh "configinfo".toList) → view out "configinfo".toList = none) ∧
              (c = .extension → ¬ ("configinfo".toList ∈ ownNames c u fu ∨ NestedNames C e c (view L) dh "configinfo".toList) →
                ∃ v row st b, Product.getAt (rootVal dr) [0, 1] = some v ∧ Product.getAt (rootVal dr) [1] = some (.list row) ∧ mapExcept (Stage.storedOf k) l = .ok st ∧ (∀ m, m ∈ st.map (·.1) ↔ view out m ≠ none) ∧
                  stamped k st (braceFile e.y.win (newInfo v row)) = some b ∧ view out "configinfo".toList = some (.file b)) := by
  obtain ⟨packed, h1, h2⟩ := V8.Versions.C75_folder_back namesOf s d w w' src M E hready hfit hout hun d' hdd look hlook ls hls areas hareas
  exact ⟨packed, h1, C68_any_layout types C g e c ver ord shuf nm n info dir file fu u dr dh hC hN hE hy hp ha hv0 hT hsame hord hshuf I k hz ht old L fuel steps deep hold hL hdirs hd hx hok hin
    s.win src hsrc packed h2⟩

/-- **C76, index.**  Extract a product file with an index of the files to share and build with the same index: the build can be done, and whatever order its
tasks finish in, the new product file holds what C67 says. -/
theorem C76_with_index (types : List (Text × Text)) (C : Text → Option Class) (g : V8.FormObj.Lim) (e : V8.Root.Env) (c : Cls) (ver : Text)
    (ord : Text → List Nested.Entry → List Nested.Entry) (shuf : List Text → List Text) (nm : Val → Text) (n : Nat) (info : Info) (dir : V8.Tree.Dir) (file fu u : Text)
    (dr dh : List (List Val)) (hC : ClassesOk C) (hN : PlainNames C) (hE : e.x.E = envOf types C) (hy : e.y.E = e.x.E) (hp : e.y.p = e.x.p) (ha : e.y.auto = e.x.auto)
    (hv0 : e.x.valid [] = false) (hT : ∀ u, e.types u ≠ some "ConfigurationExtension".toList) (hsame : V8.Misc.checkVersion e.tool e.tool = .ok ())
    (hord : ∀ id l, (ord id l).Perm l) (hshuf : ∀ l, (shuf l).Perm l)
    (I : Inflater) (k : V8.Stage.Disk) (hz : ZlibOk I k.D) (ht : TimesOk k)
    (old : Bytes) (L : Folder) (fuel steps deep : Nat) (hold : unwrap I fuel steps deep old = .ok [L]) (hL : FolderOk L) (hdirs : DirsOk (view L))
    (hd : detect e (view L) = some (c, ver)) (hx : extractProduct e (handlers C g e.x e.y ver) c ver (view L) n = some (info, dir))
    (hok : ProductOk e c ver (view L) file fu u dr dh) (hin : InnerOk types C g e c ver (view L) nm dh)
    (cwd : Text → Option (List (Text × Bool))) (s : V8.Org.Sys) (idx : V8.Json.D) (w w' : V8.Org.World JT) (src : List (V8.Org.Item JT)) (hsrc : Found dir src)
    (M : Dir → Text → List V8.Code.Node) (E : Dir → Text → V8.Areas.Elems JT) (hready : V8.Org.Ready namesOf s w src M E) (hidx : V8.OrgIndex.IndexOk namesOf s idx src M E)
    (hown : V8.OrgIndex.NoOther idx src)
    (hun : V8.OrgIndex.Unpacked namesOf s idx w src w') (ls : List (Dir × Text)) (hls : V8.Org.Listing s w' ls) (areas : Nat)
    (hforms : ∀ i ∈ src, V8.Org.isElem i.2.1 = true → V8.Areas.areasOut namesOf (E i.1 i.2.1).tree [] (E i.1 i.2.1).data ≠ none)
    (hareas : ∀ i ∈ src, V8.Org.isCode i.2.1 = true → V8.Code.nodesDepth (M i.1 i.2.1) < areas) :
    (∃ packed, V8.OrgIndex.Packed namesOf cwd s idx w' ls areas packed) ∧ ∀ packed, V8.OrgIndex.Packed namesOf cwd s idx w' ls areas packed →
      (∃ D, Saved s.win packed D) ∧ ∀ D, Saved s.win packed D → (∃ dir', Shows D [] dir') ∧
      ∀ dir', Shows D [] dir' →
        ∃ files, buildProduct e (fun v p => handlers C g e.x { e.y with prod := p } v) ord shuf file dir' = some (c, files) ∧ (∃ l, OnDisk l files) ∧
          ∀ l, OnDisk l files → ((∀ s, stored k l = .ok s → (s.map (fun p => p.2.length + 4 * p.1.length + 800)).sum + 2000 < 2 ^ 31) → ∃ new, wrap k l = .ok new ∧ new.length < 2 ^ 31) ∧
            ∀ new, wrap k l = .ok new → new.length < 2 ^ 31 → ∀ fuel' steps' deep', 2 ^ 31 ≤ fuel' → 2 ≤ steps' →
              ∃ out, unwrap I fuel' steps' deep' new = .ok [out] ∧ (∀ m, (c ≠ .extension → m ≠ "versions".toList) → m ≠ "configinfo".toList →
                (m ∈ ownNames c u fu ∨ NestedNames C e c (view L) dh m → view out m = view L m) ∧
                (¬ (m ∈ ownNames c u fu ∨ NestedNames C e c (view L) dh m) → view out m = none)) ∧
              (c ≠ .extension → ¬ ("versions".toList ∈ ownNames c u fu ∨ NestedNames C e c (view L) dh "versions".toList) →
                ∃ names, names.Perm (files.map (·.1)) ∧ view out "versions".toList = some (.file (braceFile e.y.win (versionsTree e.rnd names))) ∧ ∀ m, m ∈ names ↔ view out m ≠ none) ∧
              (c ≠ .extension → ¬ ("configinfo".toList ∈ ownNames c u fu ∨ NestedNames C e c (view L) dh "configinfo".toList) → view out "configinfo".toList = none) ∧
              (c = .extension → ¬ ("configinfo".toList ∈ ownNames c u fu ∨ NestedNames C e c (view L) dh "configinfo".toList) →
                ∃ v row st b, Product.getAt (rootVal dr) [0, 1] = some v ∧ Product.getAt (rootVal dr) [1] = some (.list row) ∧ mapExcept (Stage.storedOf k) l = .ok st ∧ (∀ m, m ∈ st.map (·.1) ↔ view out m ≠ none) ∧
                  stamped k st (braceFile e.y.win (newInfo v row)) = some b ∧ view out "configinfo".toList = some (.file b)) := by
  refine ⟨((V8.OrgIndex.C74_runs namesOf cwd s idx w src M E hready hidx hown hforms areas hareas).2 w' hun).2 ls hls, fun packed hpk => ?_⟩
  have h2 := V8.OrgIndex.C74_folder_back namesOf cwd s idx w w' src M E hready hidx hown hun ls hls areas hareas packed hpk
  exact C68_any_layout types C g e c ver ord shuf nm n info dir file fu u dr dh hC hN hE hy hp ha hv0 hT hsame hord hshuf I k hz ht old L fuel steps deep hold hL hdirs hd hx hok hin
    s.win src hsrc packed h2

/-- **C76, index with `*`.**  Extract a product file with an index that has `*` entries and build from the folder around the sources with the same index: the build can be done, and whatever order its
tasks finish in, the new product file holds what C67 says. -/
theorem C76_with_stars (types : List (Text × Text)) (C : Text → Option Class) (g : V8.FormObj.Lim) (e : V8.Root.Env) (c : Cls) (ver : Text)
    (ord : Text → List Nested.Entry → List Nested.Entry) (shuf : List Text → List Text) (nm : Val → Text) (n : Nat) (info : Info) (dir : V8.Tree.Dir) (file fu u : Text)
    (dr dh : List (List Val)) (hC : ClassesOk C) (hN : PlainNames C) (hE : e.x.E = envOf types C) (hy : e.y.E = e.x.E) (hp : e.y.p = e.x.p) (ha : e.y.auto = e.x.auto)
    (hv0 : e.x.valid [] = false) (hT : ∀ u, e.types u ≠ some "ConfigurationExtension".toList) (hsame : V8.Misc.checkVersion e.tool e.tool = .ok ())
    (hord : ∀ id l, (ord id l).Perm l) (hshuf : ∀ l, (shuf l).Perm l)
    (I : Inflater) (k : V8.Stage.Disk) (hz : ZlibOk I k.D) (ht : TimesOk k)
    (old : Bytes) (L : Folder) (fuel steps deep : Nat) (hold : unwrap I fuel steps deep old = .ok [L]) (hL : FolderOk L) (hdirs : DirsOk (view L))
    (hd : detect e (view L) = some (c, ver)) (hx : extractProduct e (handlers C g e.x e.y ver) c ver (view L) n = some (info, dir))
    (hok : ProductOk e c ver (view L) file fu u dr dh) (hin : InnerOk types C g e c ver (view L) nm dh)
    (cwd : Text → Option (List (Text × Bool))) (s : V8.Org.Sys) (idx : V8.Json.D) (w w' : V8.Org.World JT) (src : List (V8.Org.Item JT)) (hsrc : Found dir src)
    (M : Dir → Text → List V8.Code.Node) (E : Dir → Text → V8.Areas.Elems JT) (hready : V8.Org.Ready namesOf s w src M E) (hidx : V8.OrgIndex.StarOk namesOf s idx src M E)
    (hown : V8.OrgIndex.NoOtherStar idx src) (halone : V8.OrgIndex.Alone s idx src) (honly : V8.OrgIndex.Only s idx w src)
    (hun : V8.OrgIndex.Unpacked namesOf s idx w src w') (hcwd : V8.OrgIndex.Around cwd s idx w') (ls : List (Dir × Text)) (hls : V8.Org.Listing s w' ls) (areas : Nat)
    (hforms : ∀ i ∈ src, V8.Org.isElem i.2.1 = true → V8.Areas.areasOut namesOf (E i.1 i.2.1).tree [] (E i.1 i.2.1).data ≠ none)
    (hareas : ∀ i ∈ src, V8.Org.isCode i.2.1 = true → V8.Code.nodesDepth (M i.1 i.2.1) < areas) :
    (∃ packed, V8.OrgIndex.Packed namesOf cwd s idx w' ls areas packed) ∧ ∀ packed, V8.OrgIndex.Packed namesOf cwd s idx w' ls areas packed →
      (∃ D, Saved s.win packed D) ∧ ∀ D, Saved s.win packed D → (∃ dir', Shows D [] dir') ∧
      ∀ dir', Shows D [] dir' →
        ∃ files, buildProduct e (fun v p => handlers C g e.x { e.y with prod := p } v) ord shuf file dir' = some (c, files) ∧ (∃ l, OnDisk l files) ∧
          ∀ l, OnDisk l files → ((∀ s, stored k l = .ok s → (s.map (fun p => p.2.length + 4 * p.1.length + 800)).sum + 2000 < 2 ^ 31) → ∃ new, wrap k l = .ok new ∧ new.length < 2 ^ 31) ∧
            ∀ new, wrap k l = .ok new → new.length < 2 ^ 31 → ∀ fuel' steps' deep', 2 ^ 31 ≤ fuel' → 2 ≤ steps' →
              ∃ out, unwrap I fuel' steps' deep' new = .ok [out] ∧ (∀ m, (c ≠ .extension → m ≠ "versions".toList) → m ≠ "configinfo".toList →
                (m ∈ ownNames c u fu ∨ NestedNames C e c (view L) dh m → view out m = view L m) ∧
                (¬ (m ∈ ownNames c u fu ∨ NestedNames C e c (view L) dh m) → view out m = none)) ∧
              (c ≠ .extension → ¬ ("versions".toList ∈ ownNames c u fu ∨ NestedNames C e c (view L) dh "versions".toList) →
                ∃ names, names.Perm (files.map (·.1)) ∧ view out "versions".toList = some (.file (braceFile e.y.win (versionsTree e.rnd names))) ∧ ∀ m, m ∈ names ↔ view out m ≠ none) ∧
              (c ≠ .extension → ¬ ("configinfo".toList ∈ ownNames c u fu ∨ NestedNames C e c (view L) dh "configinfo".toList) → view out "configinfo".toList = none) ∧
              (c = .extension → ¬ ("configinfo".toList ∈ ownNames c u fu ∨ NestedNames C e c (view L) dh "configinfo".toList) →
                ∃ v row st b, Product.getAt (rootVal dr) [0, 1] = some v ∧ Product.getAt (rootVal dr) [1] = some (.list row) ∧ mapExcept (Stage.storedOf k) l = .ok st ∧ (∀ m, m ∈ st.map (·.1) ↔ view out m ≠ none) ∧
                  stamped k st (braceFile e.y.win (newInfo v row)) = some b ∧ view out "configinfo".toList = some (.file b)) := by
  refine ⟨((V8.OrgIndex.C77_runs namesOf s idx w src M E hready hidx hown halone honly hforms areas hareas).2 w' hun).2 cwd ls hcwd hls, fun packed hpk => ?_⟩
  have h2 := V8.OrgIndex.C77_folder_back namesOf cwd s idx w w' src M E hready hidx hown halone honly hun hcwd ls hls areas hareas packed hpk
  exact C68_any_layout types C g e c ver ord shuf nm n info dir file fu u dr dh hC hN hE hy hp ha hv0 hT hsame hord hshuf I k hz ht old L fuel steps deep hold hL hdirs hd hx hok hin
    s.win src hsrc packed h2

end V8.Pipe
