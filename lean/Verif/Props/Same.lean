import Verif.Props.OrderRoot
import Verif.Props.Whole
/-
C85: the order and the times of the files in a product file do not matter, and two builds of one product give product files with the same content.
-/
namespace V8.Same
open V8.Enc V8.Zlib V8.Stage V8.Whole V8.Store V8.Tree V8.Product V8.Order
open V8.Nested hiding Handler Env
open V8.Object hiding Cls
open V8.Misc (Cls configinfoName)
open V8.Root (buildProduct extractProduct detect versionsIn ProductOk InnerOk Written NestedNames)
open V8.Brace (Val)
open V8.Brace

/-! ### specification -/

/-- the two folders have the same names with the same content, except perhaps under the names `X`; the files in a folder of a module may be listed in any order -/
def Alike (X : List Text) (l l' : Folder) : Prop := ∀ m, m ∉ X → view l' m = view l m

/-- no file is written twice with different content, except perhaps under the names `X` -/
def Once (X : List Text) (fs : List (Text × Store.Node)) : Prop := ∀ m, m ∉ X → ∀ nd nd', (m, nd) ∈ fs → (m, nd') ∈ fs → nd = nd'

/-! ### proofs -/

theorem Alike.symm {X : List Text} {l l' : Folder} (h : Alike X l l') : Alike X l' l := fun m hm => (h m hm).symm

/-- **C85, two product files.**  Folders that hold the same are wrapped into two product files, by two machines: in any order of listing, with any times of the files, each with its own way to compress.  If both are below 2 GiB, each is taken apart
into one container, and these hold the same again (`configinfo`, in which digests are put, aside). -/
theorem C85_product_files (I : Inflater) (d d' : Disk) (X : List Text) (l l' : Folder) (f f' : Bytes) (hz : ZlibOk I d.D) (hz' : ZlibOk I d'.D) (ht : TimesOk d) (ht' : TimesOk d') (ok : FolderOk l) (ok' : FolderOk l')
    (ha : Alike X l l') (h : wrap d l = .ok f) (h' : wrap d' l' = .ok f') (hsz : f.length < 2 ^ 31) (hsz' : f'.length < 2 ^ 31) (fuel steps n : Nat) (hf : 2 ^ 31 ≤ fuel) (hst : 2 ≤ steps) :
    ∃ out out', unwrap I fuel steps n f = .ok [out] ∧ unwrap I fuel steps n f' = .ok [out'] ∧ Alike (configinfoName :: X) out out' := by
  obtain ⟨o, h1, _, h2, _⟩ := C65_wrap_unwrap I d l f hz ht ok h hsz fuel steps n hf hst
  obtain ⟨o', g1, _, g2, _⟩ := C65_wrap_unwrap I d' l' f' hz' ht' ok' h' hsz' fuel steps n hf hst
  refine ⟨o, o', h1, g1, fun m hm => ?_⟩
  rw [List.mem_cons, not_or] at hm
  rw [g2 m hm.1, h2 m hm.1, ha m hm.2]

theorem view_none {l : Folder} {m : Text} : view l m = none ↔ m ∉ l.map (·.1) := by
  rw [← view_iff m, not_not]

/-- **C85, extraction.**  Without `configinfo` (a configuration of an old format, a processor, a report) the sources extracted from the two product files are the same, and so is the class that is found. -/
theorem C85_extract (I : Inflater) (d d' : Disk) (l l' : Folder) (f f' : Bytes) (hz : ZlibOk I d.D) (hz' : ZlibOk I d'.D) (ht : TimesOk d) (ht' : TimesOk d') (ok : FolderOk l) (ok' : FolderOk l')
    (ha : Alike [] l l') (hc : configinfoName ∉ l.map (·.1)) (h : wrap d l = .ok f) (h' : wrap d' l' = .ok f') (hsz : f.length < 2 ^ 31) (hsz' : f'.length < 2 ^ 31) (fuel steps n : Nat) (hf : 2 ^ 31 ≤ fuel) (hst : 2 ≤ steps) :
    ∃ out out', unwrap I fuel steps n f = .ok [out] ∧ unwrap I fuel steps n f' = .ok [out'] ∧ (∀ e, detect e (view out') = detect e (view out)) ∧
      ∀ e K c ver k, extractProduct e K c ver (view out') k = extractProduct e K c ver (view out) k := by
  obtain ⟨o, h1, p1, h2, _⟩ := C65_wrap_unwrap I d l f hz ht ok h hsz fuel steps n hf hst
  obtain ⟨o', g1, p1', g2, _⟩ := C65_wrap_unwrap I d' l' f' hz' ht' ok' h' hsz' fuel steps n hf hst
  have hc' : configinfoName ∉ l'.map (·.1) := by
    rw [← view_none, ha _ (by simp), view_none]
    exact hc
  have hv : view o' = view o := by
    funext m
    by_cases hm : m = configinfoName
    · rw [hm, view_none.mpr (fun hh => hc' (p1'.mem_iff.mp hh)), view_none.mpr (fun hh => hc (p1.mem_iff.mp hh))]
    · rw [g2 m hm, h2 m hm, ha m (by simp)]
  exact ⟨o, o', h1, g1, fun e => by rw [hv], fun e K c ver k => by rw [hv]⟩

theorem on_disk {l : Folder} {fs : List (Text × Store.Node)} (h : OnDisk l fs) {m : Text} (ho : ∀ nd nd', (m, nd) ∈ fs → (m, nd') ∈ fs → nd = nd') (nd : Store.Node) : view l m = some nd ↔ (m, nd) ∈ fs := by
  obtain ⟨fs', hp, hs⟩ := h.same
  rw [hs]
  constructor
  · intro hv
    exact hp.mem_iff.mp (folder_mem hv)
  · intro hm
    obtain ⟨nd', hv⟩ := folder_has (hp.mem_iff.mpr hm)
    rw [hv, ho _ _ (hp.mem_iff.mp (folder_mem hv)) hm]

theorem files_alike {c : Cls} {win : Bool} {rnd rnd' : Nat → Text} {X : List Text} {fs fs' : List (Text × Store.Node)} (hs : SameFiles c win rnd rnd' fs fs') {l l' : Folder} (hl : OnDisk l fs) (hl' : OnDisk l' fs')
    (hX : "versions".toList ∈ X) (ho : Once X fs) : Alike X l l' := by
  intro m hm
  have hv : m ≠ "versions".toList := fun he => hm (he ▸ hX)
  have h1 := ho m hm
  have h2 : ∀ nd nd', (m, nd) ∈ fs' → (m, nd') ∈ fs' → nd = nd' := fun nd nd' ha hb => h1 nd nd' ((hs.files m nd hv).mp ha) ((hs.files m nd' hv).mp hb)
  apply Option.ext
  intro nd
  rw [on_disk hl h1, on_disk hl' h2, hs.files m nd hv]

/-- **C85, two builds.**  Source folders are built twice: with renamed and relisted folders of objects, other orders of the workers and other random identifiers, as in C84.  What each build wrote is wrapped up on its own machine, with other times.
Taken apart, both product files have one container, and the two containers have the same names with the same content, except for `versions` and `configinfo`. -/
theorem C85_two_builds (C : Text → Option Class) (g : V8.FormObj.Lim) (e : V8.Root.Env) (rnd' : Nat → Text) (ord ord' : Text → List Nested.Entry → List Nested.Entry) (shuf shuf' : List Text → List Text) (file : Text)
    (hord : ∀ id l, (ord id l).Perm l) (hord' : ∀ id l, (ord' id l).Perm l) (hshuf : ∀ l, (shuf l).Perm l) (hshuf' : ∀ l, (shuf' l).Perm l) (f : List (Place Store.Node)) (s : Subs) (d' : Tree.Dir)
    (hr : Renamed (.mk f s) d') (hu : ∀ v p, Unambiguous (handlers C g e.x { e.y with prod := p } v) s) (c : Cls) (fs fs' : List (Text × Store.Node))
    (h : buildProduct e (fun v p => handlers C g e.x { e.y with prod := p } v) ord shuf file (.mk f s) = some (c, fs)) (hn : Once ["versions".toList] fs)
    (h' : buildProduct { e with rnd := rnd' } (fun v p => handlers C g e.x { e.y with prod := p } v) ord' shuf' file d' = some (c, fs'))
    (I : Inflater) (k k' : Disk) (hz : ZlibOk I k.D) (hz' : ZlibOk I k'.D) (ht : TimesOk k) (ht' : TimesOk k') (l l' : Folder) (hl : OnDisk l fs) (hl' : OnDisk l' fs') (ok : FolderOk l) (ok' : FolderOk l') (b b' : Bytes)
    (hw : wrap k l = .ok b) (hw' : wrap k' l' = .ok b') (hsz : b.length < 2 ^ 31) (hsz' : b'.length < 2 ^ 31) (fuel steps n : Nat) (hf : 2 ^ 31 ≤ fuel) (hst : 2 ≤ steps) :
    ∃ out out', unwrap I fuel steps n b = .ok [out] ∧ unwrap I fuel steps n b' = .ok [out'] ∧ Alike [configinfoName, "versions".toList] out out' := by
  obtain ⟨fs0, h1, h2⟩ := C84_product C g e rnd' ord ord' shuf shuf' file hord hord' hshuf hshuf' f s d' hr hu c fs h
  have he := h1.symm.trans h'
  simp only [Option.some.injEq, Prod.mk.injEq, true_and] at he
  subst he
  exact C85_product_files I k k' _ l l' b b' hz hz' ht ht' ok ok' (files_alike h2 hl hl' List.mem_cons_self hn) hw hw' hsz hsz' fuel steps n hf hst

/-- **C85, from a product file.**  A product file is extracted and built twice: once from its sources as they are, once with renamed and relisted folders of objects, other orders of the workers, other random identifiers, another order and other
times of the files and another machine.  Both builds succeed, and the two new product files, taken apart, have the same names with the same content, except for `versions` and `configinfo`. -/
theorem C85_from_product (types : List (Text × Text)) (C : Text → Option Class) (g : V8.FormObj.Lim) (e : V8.Root.Env) (rnd' : Nat → Text) (c : Cls) (ver : Text) (ord ord' : Text → List Nested.Entry → List Nested.Entry)
    (shuf shuf' : List Text → List Text) (nm : Val → Text) (n : Nat) (info : V8.Header.Info) (src : List (Place Store.Node)) (s : Subs) (d' : Tree.Dir) (file fu u : Text) (dr dh : List (List Val)) (hC : ClassesOk C)
    (hE : e.x.E = envOf types C) (hy : e.y.E = e.x.E) (hp : e.y.p = e.x.p) (ha : e.y.auto = e.x.auto) (hv0 : e.x.valid [] = false) (hT : ∀ u, e.types u ≠ some "ConfigurationExtension".toList)
    (hsame : V8.Misc.checkVersion e.tool e.tool = .ok ()) (hord : ∀ id l, (ord id l).Perm l) (hord' : ∀ id l, (ord' id l).Perm l) (hshuf : ∀ l, (shuf l).Perm l) (hshuf' : ∀ l, (shuf' l).Perm l)
    (I : Inflater) (k k' : Disk) (hz : ZlibOk I k.D) (hz' : ZlibOk I k'.D) (ht : TimesOk k) (ht' : TimesOk k') (old : Bytes) (L : Folder) (fuel steps deep : Nat) (hold : unwrap I fuel steps deep old = .ok [L]) (hL : FolderOk L)
    (hd : detect e (view L) = some (c, ver)) (hx : extractProduct e (handlers C g e.x e.y ver) c ver (view L) n = some (info, .mk src s)) (hok : ProductOk e c ver (view L) file fu u dr dh)
    (hin : InnerOk types C g e c ver (view L) nm dh) (hr : Renamed (.mk src s) d') (hu : ∀ v p, Unambiguous (handlers C g e.x { e.y with prod := p } v) s) :
    ∃ fs fs', buildProduct e (fun v p => handlers C g e.x { e.y with prod := p } v) ord shuf file (.mk src s) = some (c, fs) ∧
      buildProduct { e with rnd := rnd' } (fun v p => handlers C g e.x { e.y with prod := p } v) ord' shuf' file d' = some (c, fs') ∧ (∃ l, OnDisk l fs) ∧ (∃ l', OnDisk l' fs') ∧
      ∀ l l', OnDisk l fs → OnDisk l' fs' → ∀ b b', wrap k l = .ok b → wrap k' l' = .ok b' → b.length < 2 ^ 31 → b'.length < 2 ^ 31 → ∀ fuel' steps' deep', 2 ^ 31 ≤ fuel' → 2 ≤ steps' →
        ∃ out out', unwrap I fuel' steps' deep' b = .ok [out] ∧ unwrap I fuel' steps' deep' b' = .ok [out'] ∧ Alike [configinfoName, "versions".toList] out out' := by
  obtain ⟨fs, names, h1, _, h3⟩ := V8.Root.C62_product types C g e c ver (view L) ord shuf nm n info (.mk src s) file fu u dr dh hC hE hy hp ha hv0 hT hsame hord hshuf hd hx hok hin
  obtain ⟨fs', h4, h5⟩ := C84_product C g e rnd' ord ord' shuf shuf' file hord hord' hshuf hshuf' src s d' hr hu c fs h1
  have hfrom : ∀ m nd, (m, nd) ∈ fs → view L m = some nd ∨ ((m = "versions".toList ∨ m = "configinfo".toList) ∧ ∃ d, nd = .file (braceFile e.y.win d)) := by
    intro m nd hm
    rcases (h3 m nd).mp hm with ⟨_, h⟩ | ⟨_, h⟩ | ⟨_, h, h'⟩ | ⟨_, h, v, row, _, _, h'⟩
    · exact .inl h
    · exact .inl h
    · exact .inr ⟨.inl h, _, h'⟩
    · exact .inr ⟨.inr h, _, h'⟩
  have hfrom' : ∀ m nd, (m, nd) ∈ fs' → view L m = some nd ∨ ((m = "versions".toList ∨ m = "configinfo".toList) ∧ ∃ d, nd = .file (braceFile e.y.win d)) := by
    intro m nd hm
    by_cases hv : m = "versions".toList
    · obtain ⟨a, a', w, w', g1, g2, g3, _⟩ := h5
      rw [g2, List.mem_append] at hm
      rcases hm with hm | hm
      · exact hfrom m nd (by rw [g1]; exact List.mem_append_left _ (g3.mem_iff.mp hm))
      · cases c <;> simp only [versionsIn, List.mem_singleton, List.not_mem_nil, Prod.mk.injEq] at hm <;> exact .inr ⟨.inl hv, _, hm.2⟩
    · exact hfrom m nd ((h5.files m nd hv).mp hm)
  have honce : Once [configinfoName, "versions".toList] fs := by
    intro m hm nd nd' a b
    simp only [List.mem_cons, List.not_mem_nil, or_false, not_or] at hm
    rcases hfrom m nd a with a | ⟨a | a, _⟩
    · rcases hfrom m nd' b with b | ⟨b | b, _⟩
      · exact Option.some.inj (a.symm.trans b)
      · exact absurd b hm.2
      · exact absurd b hm.1
    · exact absurd a hm.2
    · exact absurd a hm.1
  refine ⟨fs, fs', h1, h4, ?_, ?_, ?_⟩
  · obtain ⟨l, a, b, d⟩ := V8.Whole.on_disk hL hfrom
    exact ⟨l, a, b, fs, .refl _, d⟩
  · obtain ⟨l, a, b, d⟩ := V8.Whole.on_disk hL hfrom'
    exact ⟨l, a, b, fs', .refl _, d⟩
  intro l l' hl hl' b b' hw hw' hsz hsz' fuel' steps' deep' hf hst
  obtain ⟨o, o', g1, g2, g3⟩ := C85_product_files I k k' [configinfoName, "versions".toList] l l' b b' hz hz' ht ht' (folder_ok hL hl hfrom) (folder_ok hL hl' hfrom')
    (files_alike h5 hl hl' (List.mem_cons_of_mem _ List.mem_cons_self) honce) hw hw' hsz hsz' fuel' steps' deep' hf hst
  exact ⟨o, o', g1, g2, fun m hm => g3 m (fun hh => (List.mem_cons.mp hh).elim (fun he => hm (he ▸ List.mem_cons_self)) hm)⟩

/-! ### the times in the digests -/

/-- the files of a module folder for the container writer -/
def srcOf (d : Disk) (n : Text) (s : List (Text × Bytes)) : List SrcFile := s.map (fun p => ⟨p.1, (d.times [n, p.1]).1, (d.times [n, p.1]).2, p.2⟩)

theorem entries_of (d : Disk) (n : Text) (s : List (Text × Bytes)) : (s.map (fun p => (p.1, Stage.Tree.file p.2))).map (entryOf d [n]) = (srcOf d n s).map SrcFile.entry := by
  unfold srcOf
  rw [List.map_map, List.map_map]
  rfl

/-- **C85, the digests depend on the times.**  A module folder in which one temporary file has another time of modification is stored as other bytes: the digest of this module in the `configinfo` of an extension is a digest of other bytes, although
no file of the sources is different. -/
theorem C85_times_stored_neg (I : Inflater) (d d' : Disk) (hz : ZlibOk I d.D) (hD : d'.D = d.D) (n : Text) (s : List (Text × Bytes)) (hn : (s.map (·.1)).Nodup) (hg : ∀ p ∈ s, GoodName p.1) (x x' : Bytes)
    (h : Stage.storedOf d (n, .dir (s.map (fun p => (p.1, .file p.2)))) = .ok (n, x)) (h' : Stage.storedOf d' (n, .dir (s.map (fun p => (p.1, .file p.2)))) = .ok (n, x'))
    (hsz : ∀ f, decompressFile I x = some f → f.length < 2 ^ 31) (p : Text × Bytes) (hp : p ∈ s) (hne : parseDatetime (d.times [n, p.1]).2 ≠ parseDatetime (d'.times [n, p.1]).2) : x ≠ x' := by
  intro he
  subst he
  have key : ∀ k : Disk, k.D = d.D → Stage.storedOf k (n, .dir (s.map (fun p => (p.1, .file p.2)))) = .ok (n, x) →
      ∃ f out, decompressFile I x = some f ∧ extractLoop f (2 ^ 31) 2 0 = .ok [out] ∧ out.Perm ((srcOf k n s).map SrcFile.expected) := by
    intro k hk h
    unfold Stage.storedOf at h
    simp only [entries_of] at h
    cases hb : buildContainer fmt32 k.deflate ⟨[], 0⟩ ((srcOf k n s).map SrcFile.entry) true 0 with
    | error e => rw [hb] at h; cases h
    | ok w =>
      rw [hb] at h
      simp only [Except.ok.injEq, Prod.mk.injEq, true_and] at h
      have hx : decompressFile I x = some w.bytes := by rw [← h, hk]; exact decompress_compress hz _
      have hl := hsz _ hx
      obtain ⟨out, o1, o2, _⟩ := C01_build_extract k.deflate (srcOf k n s) w.bytes (by unfold srcOf; rw [List.map_map]; exact hn) (by
        intro q hq
        obtain ⟨p, hp, rfl⟩ := List.mem_map.mp hq
        exact hg p hp) (by simp only [buildFile, hb]) hl (2 ^ 31) 2 (Nat.le_of_lt hl) (Nat.le_refl _)
      exact ⟨w.bytes, out, hx, o1, o2⟩
  obtain ⟨f, o, a1, a2, a3⟩ := key d rfl h
  obtain ⟨f', o', b1, b2, b3⟩ := key d' hD h'
  cases a1.symm.trans b1
  have ho := a2.symm.trans b2
  simp only [Except.ok.injEq, List.cons.injEq, and_true] at ho
  subst ho
  have hm : SrcFile.expected ⟨p.1, (d.times [n, p.1]).1, (d.times [n, p.1]).2, p.2⟩ ∈ (srcOf d' n s).map SrcFile.expected :=
    (a3.symm.trans b3).mem_iff.mp (List.mem_map.mpr ⟨_, List.mem_map.mpr ⟨p, hp, rfl⟩, rfl⟩)
  obtain ⟨q, hq, he⟩ := List.mem_map.mp hm
  obtain ⟨p', hp', rfl⟩ := List.mem_map.mp hq
  simp only [SrcFile.expected, File.mk.injEq] at he
  have := same_of hn hp' hp he.1
  subst this
  exact hne he.2.2.2.1.symm

end V8.Same
