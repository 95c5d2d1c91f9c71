import Verif.Props.RootNeg
import Verif.Props.Stage
/-
C67: from a product file to a product file.  C65 (the binary stages) and C62 (the product) put together.
-/
namespace V8.Whole
open V8.Brace V8.Enc V8.Header V8.Store V8.Tree V8.Stage V8.Zlib V8.Root
open V8.Nested hiding Env Handler
open V8.Object hiding Cls
open V8.Misc (Cls)

/-! ### specification -/

/-- the folder `l` holds what is on disk after the files `fs` were written, in whatever order -/
structure OnDisk (l : Folder) (fs : List (Text × Store.Node)) : Prop where
  names : (l.map (·.1)).Nodup
  flat : ∀ m s, (m, Stage.Tree.dir s) ∈ l → (s.map (·.1)).Nodup ∧ ∀ p ∈ s, ∃ b, p.2 = .file b
  same : ∃ fs' : List (Text × Store.Node), fs'.Perm fs ∧ ∀ m, view l m = folder (fs'.map (fun p => (p.1, some p.2))) m

/-! ### pieces -/

theorem folder_mem {fs : List (Text × Store.Node)} {m : Text} {nd : Store.Node} (h : folder (fs.map (fun p => (p.1, some p.2))) m = some nd) : (m, nd) ∈ fs := by
  have hw : written (fs.map (fun p => (p.1, some p.2))) = fs := by
    unfold written
    rw [List.filterMap_map]
    exact List.filterMap_some
  unfold folder at h
  rw [hw, Option.map_eq_some_iff] at h
  obtain ⟨p, hp, rfl⟩ := h
  have h1 := List.find?_some hp
  have h1 : p.1 = m := of_decide_eq_true h1
  subst h1
  exact List.mem_reverse.mp (List.mem_of_find?_eq_some hp)

theorem folder_has {fs : List (Text × Store.Node)} {m : Text} {nd : Store.Node} (h : (m, nd) ∈ fs) : ∃ nd', folder (fs.map (fun p => (p.1, some p.2))) m = some nd' := by
  have hw : written (fs.map (fun p => (p.1, some p.2))) = fs := by
    unfold written
    rw [List.filterMap_map]
    exact List.filterMap_some
  unfold folder
  rw [hw]
  cases hf : fs.reverse.find? (fun p => decide (p.1 = m)) with
  | some p => exact ⟨p.2, rfl⟩
  | none =>
    rw [List.find?_eq_none] at hf
    exact absurd (decide_eq_true rfl) (hf _ (List.mem_reverse.mpr h))

theorem view_file {l : Folder} {m : Text} {b : Bytes} (hn : (l.map (·.1)).Nodup) (h : (m, Stage.Tree.file b) ∈ l) : view l m = some (.file b) := by
  unfold view
  rw [find_of hn h]
  rfl

/-- the files of a module folder, by name -/
def look (s : Folder) : Text → Option Bytes := fun k => (find s k).bind (fun t => match t with
  | .file b => some b
  | .dir _ => none)

theorem view_dir {l : Folder} {m : Text} {s : Folder} (hn : (l.map (·.1)).Nodup) (h : (m, Stage.Tree.dir s) ∈ l) : view l m = some (.dir (look s)) := by
  unfold view
  rw [find_of hn h]
  rfl

theorem view_inv_file {l : Folder} {m : Text} {b : Bytes} (h : view l m = some (.file b)) : (m, Stage.Tree.file b) ∈ l := by
  unfold view at h
  rw [Option.map_eq_some_iff] at h
  obtain ⟨t, ht, he⟩ := h
  cases t with
  | file b' => cases he; exact find_mem ht
  | dir s => cases he

theorem view_inv_dir {l : Folder} {m : Text} {g : Text → Option Bytes} (h : view l m = some (.dir g)) : ∃ s, (m, Stage.Tree.dir s) ∈ l ∧ g = look s := by
  unfold view at h
  rw [Option.map_eq_some_iff] at h
  obtain ⟨t, ht, he⟩ := h
  cases t with
  | file b' => cases he
  | dir s => exact ⟨s, find_mem ht, by injection he with he; exact he.symm⟩

theorem look_iff {s : Folder} (hn : (s.map (·.1)).Nodup) (k : Text) (b : Bytes) : look s k = some b ↔ (k, Stage.Tree.file b) ∈ s := by
  unfold look
  constructor
  · intro h
    rw [Option.bind_eq_some_iff] at h
    obtain ⟨t, ht, he⟩ := h
    cases t with
    | file b' => cases he; exact find_mem ht
    | dir s => cases he
  · intro h
    rw [find_of hn h]
    rfl

theorem nodup_of_map {α β : Type} (f : α → β) {l : List α} (h : (l.map f).Nodup) : l.Nodup := by
  rw [List.Nodup, List.pairwise_map] at h
  exact h.imp (fun hne he => hne (congrArg f he))

theorem perm_of_look {s t : Folder} (hs : (s.map (·.1)).Nodup) (ht : (t.map (·.1)).Nodup) (fs : ∀ p ∈ s, ∃ b, p.2 = .file b) (ft : ∀ p ∈ t, ∃ b, p.2 = .file b)
    (h : look s = look t) : s.Perm t := by
  rw [List.perm_ext_iff_of_nodup (nodup_of_map _ hs) (nodup_of_map _ ht)]
  rintro ⟨k, x⟩
  constructor
  · intro hm
    obtain ⟨b, hb⟩ := fs _ hm
    simp only at hb
    subst hb
    exact (look_iff ht k b).mp (h ▸ (look_iff hs k b).mpr hm)
  · intro hm
    obtain ⟨b, hb⟩ := ft _ hm
    simp only at hb
    subst hb
    exact (look_iff hs k b).mp (h ▸ (look_iff ht k b).mpr hm)

theorem brace_mark (win : Bool) (d : List (List Val)) : (braceFile win d).take 4 ≠ mark := by
  intro h
  have : ((braceFile win d).take 4).head? = mark.head? := congrArg _ h
  unfold braceFile bom8 mark at this
  simp at this

theorem brace_utf8 (win : Bool) (d : List (List Val)) : braceFile win d = utf8 (bom :: osWrite win (encRoot d)) := by
  unfold braceFile
  rw [show (bom :: osWrite win (encRoot d)) = [bom] ++ osWrite win (encRoot d) from rfl, Stage.utf8_append, utf8_bom]

theorem view_iff {l : Folder} (m : Text) : view l m ≠ none ↔ m ∈ l.map (·.1) := by
  unfold view
  rw [ne_eq, Option.map_eq_none_iff]
  constructor
  · intro h
    cases hf : find l m with
    | none => exact absurd hf h
    | some t => exact List.mem_map.mpr ⟨_, find_mem hf, rfl⟩
  · intro h hf
    unfold find at hf
    rw [Option.map_eq_none_iff, List.find?_eq_none] at hf
    obtain ⟨p, hp, rfl⟩ := List.mem_map.mp h
    exact hf p hp (decide_eq_true rfl)

theorem sum_perm {a b : List Nat} (h : a.Perm b) : a.sum = b.sum := by
  induction h with
  | nil => rfl
  | cons x _ ih => rw [List.sum_cons, List.sum_cons, ih]
  | swap x y l => simp only [List.sum_cons]; omega
  | trans _ _ h1 h2 => exact h1.trans h2

/-- what is built can be wrapped up, if what was there could -/
theorem folder_ok {L l : Folder} (hL : FolderOk L) {fs : List (Text × Store.Node)} {win : Bool} (hd : OnDisk l fs)
    (h : ∀ m nd, (m, nd) ∈ fs → view L m = some nd ∨ ((m = "versions".toList ∨ m = "configinfo".toList) ∧ ∃ d, nd = .file (braceFile win d))) : FolderOk l := by
  obtain ⟨fs', hp, hs⟩ := hd.same
  have hin : ∀ m nd, view l m = some nd → (m, nd) ∈ fs := fun m nd hv => hp.mem_iff.mp (folder_mem (by rw [← hs]; exact hv))
  have hfile : ∀ m b, (m, Stage.Tree.file b) ∈ l → (m, Stage.Tree.file b) ∈ L ∨ ((m = "versions".toList ∨ m = "configinfo".toList) ∧ ∃ d, b = braceFile win d) := by
    intro m b hm
    rcases h m _ (hin m _ (view_file hd.names hm)) with h | ⟨h, d, hd⟩
    · exact .inl (view_inv_file h)
    · cases hd
      exact .inr ⟨h, d, rfl⟩
  have hdir : ∀ m s, (m, Stage.Tree.dir s) ∈ l → ∃ s', (m, Stage.Tree.dir s') ∈ L ∧ s.Perm s' := by
    intro m s hm
    rcases h m _ (hin m _ (view_dir hd.names hm)) with h | ⟨h, d, hd'⟩
    · obtain ⟨s', h1, h2⟩ := view_inv_dir h
      obtain ⟨_, n2, n3, _⟩ := hL.dir m s' h1
      obtain ⟨f1, f2⟩ := hd.flat m s hm
      exact ⟨s', h1, perm_of_look f1 n2 f2 (fun p hp => by obtain ⟨_, b, hb, _⟩ := n3 p hp; exact ⟨b, hb⟩) h2⟩
    · cases hd'
  refine ⟨hd.names, ?_, ?_, ?_, ?_⟩
  · rintro ⟨m, t⟩ hm
    have : (∃ t, (m, t) ∈ L) ∨ m = "versions".toList ∨ m = "configinfo".toList := by
      cases t with
      | file b =>
        rcases hfile m b hm with h | ⟨h, _⟩
        · exact .inl ⟨_, h⟩
        · exact .inr h
      | dir s =>
        obtain ⟨s', h, _⟩ := hdir m s hm
        exact .inl ⟨_, h⟩
    show GoodName m
    rcases this with ⟨t, h⟩ | rfl | rfl
    · exact hL.good _ h
    · unfold GoodName NoBom; decide
    · unfold GoodName NoBom; decide
  · intro m b hm
    rcases hfile m b hm with h | ⟨_, d, rfl⟩
    · exact hL.file m b h
    · exact brace_mark win d
  · intro m s hm
    obtain ⟨s', h, hp⟩ := hdir m s hm
    obtain ⟨n1, n2, n3, n4⟩ := hL.dir m s' h
    refine ⟨fun he => n1 (by rw [he] at hp; exact List.nil_perm.mp hp), (hp.map _).nodup_iff.mpr n2, fun p hp' => n3 p (hp.mem_iff.mp hp'), ?_⟩
    rw [sum_perm (hp.map size)]
    exact n4
  · intro t hm
    cases t with
    | file b =>
      rcases hfile _ b hm with h | ⟨_, d, rfl⟩
      · exact hL.info _ h
      · exact ⟨_, congrArg _ (brace_utf8 win d)⟩
    | dir s =>
      obtain ⟨s', h, _⟩ := hdir _ s hm
      obtain ⟨u, hu⟩ := hL.info _ h
      cases hu

theorem folder_cons (x : Text × Store.Node) (fs : List (Text × Store.Node)) (m : Text) :
    folder ((x :: fs).map (fun p => (p.1, some p.2))) m = (folder (fs.map (fun p => (p.1, some p.2))) m).or (if x.1 = m then some x.2 else none) := by
  have hw : ∀ fs : List (Text × Store.Node), written (fs.map (fun p => (p.1, some p.2))) = fs := by
    intro fs
    unfold written
    rw [List.filterMap_map]
    exact List.filterMap_some
  unfold folder
  rw [hw, hw, List.reverse_cons, List.find?_append]
  cases List.find? (fun p => decide (p.1 = m)) fs.reverse with
  | some p => rfl
  | none =>
    rw [Option.none_or, Option.map_none, Option.none_or, List.find?_singleton]
    by_cases h : x.1 = m
    · rw [if_pos (decide_eq_true h), if_pos h]; rfl
    · rw [if_neg (fun hd => h (of_decide_eq_true hd)), if_neg h]; rfl

/-- there is such a folder -/
theorem on_disk {L : Folder} (hL : FolderOk L) {win : Bool} : ∀ {fs : List (Text × Store.Node)},
    (∀ m nd, (m, nd) ∈ fs → view L m = some nd ∨ ((m = "versions".toList ∨ m = "configinfo".toList) ∧ ∃ d, nd = .file (braceFile win d))) →
    ∃ l : Folder, (l.map (·.1)).Nodup ∧ (∀ m s, (m, Stage.Tree.dir s) ∈ l → (s.map (·.1)).Nodup ∧ ∀ p ∈ s, ∃ b, p.2 = .file b) ∧
      ∀ m, view l m = folder (fs.map (fun p => (p.1, some p.2))) m
  | [], _ => ⟨[], List.nodup_nil, (fun _ _ h => by cases h), fun _ => rfl⟩
  | (k, nd) :: fs, h => by
    obtain ⟨l, h1, h2, h3⟩ := on_disk hL (fs := fs) (fun m nd hm => h m nd (List.mem_cons_of_mem _ hm))
    cases hv : view l k with
    | some nd' =>
      refine ⟨l, h1, h2, fun m => ?_⟩
      rw [folder_cons, ← h3 m]
      by_cases hm : k = m
      · subst hm
        rw [hv]; rfl
      · simp only [hm, if_false, Option.or_none]
    | none =>
      have hnew : k ∉ l.map (·.1) := by
        intro hm
        obtain ⟨⟨k', t⟩, hp, rfl⟩ := List.mem_map.mp hm
        unfold view at hv
        simp only at hv
        rw [find_of h1 hp] at hv
        cases hv
      have key : ∀ t : Stage.Tree, (∀ s, t = .dir s → (s.map (·.1)).Nodup ∧ ∀ p ∈ s, ∃ b, p.2 = .file b) → view [(k, t)] k = some nd →
          ∃ l : Folder, (l.map (·.1)).Nodup ∧ (∀ m s, (m, Stage.Tree.dir s) ∈ l → (s.map (·.1)).Nodup ∧ ∀ p ∈ s, ∃ b, p.2 = .file b) ∧
          ∀ m, view l m = folder (((k, nd) :: fs).map (fun p => (p.1, some p.2))) m := by
        intro t ht hvt
        refine ⟨(k, t) :: l, by rw [List.map_cons, List.nodup_cons]; exact ⟨hnew, h1⟩, ?_, fun m => ?_⟩
        · intro m s hm
          rcases List.mem_cons.mp hm with he | hm
          · cases he
            exact ht s rfl
          · exact h2 m s hm
        · rw [folder_cons, ← h3 m]
          by_cases hm : k = m
          · subst hm
            rw [hv, Option.none_or, if_pos rfl, ← hvt]
            unfold view find
            simp only [List.find?_cons, decide_true]
          · simp only [hm, if_false, Option.or_none]
            unfold view find
            simp only [List.find?_cons, hm, decide_false]
      cases nd with
      | file b => exact key (.file b) (fun s hs => by cases hs) (view_file (by simp) List.mem_cons_self)
      | dir g =>
        rcases h k _ List.mem_cons_self with hd | ⟨_, d, hd⟩
        · obtain ⟨s, hs, rfl⟩ := view_inv_dir hd
          obtain ⟨_, n2, n3, _⟩ := hL.dir k s hs
          exact key (.dir s) (fun s' hs' => by cases hs'; exact ⟨n2, fun p hp => by obtain ⟨_, b, hb, _⟩ := n3 p hp; exact ⟨b, hb⟩⟩)
            (view_dir (by simp) List.mem_cons_self)
        · cases hd

/-- what is kept of the `configinfo` of an extension is there -/
theorem info_of {e : Env} {K : Text → Option Tree.Handler} {ver file fu u : Text} {F : Text → Option Store.Node} {dr dh : List (List Val)} {n : Nat} {r : Info × Dir}
    (hok : ProductOk e .extension ver F file fu u dr dh) (hx : extractProduct e K .extension ver F n = some r) :
    ∃ v row, Product.getAt (rootVal dr) [0, 1] = some v ∧ Product.getAt (rootVal dr) [1] = some (.list row) := by
  unfold extractProduct at hx
  simp only [Option.bind_eq_some_iff] at hx
  obtain ⟨⟨info, os, src⟩, hroot, _⟩ := hx
  obtain ⟨root, fu', v, hd', h', h1, b, ps, t, g1, g2, g3, g4, g5, g6, g7, g8, g9, _⟩ := rootOut_some hroot
  rw [need_file hok.root hok.rootNe hok.rootWf] at g1
  cases g1
  obtain ⟨front, other, compat, vb, parts, k1, _⟩ := besideOut_some g7
  simp only [frontOut, Option.bind_eq_some_iff, Option.map_eq_some_iff] at k1
  obtain ⟨v, hv, ci, hci, _⟩ := k1
  have hf := hok.fileAt
  rw [show filePath .extension = [1] ++ [1] from rfl, Product.getAt_append, hci, Option.bind_some] at hf
  cases ci with
  | list row => exact ⟨v, row, hv, hci⟩
  | str _ => cases hf
  | none => cases hf

/-- C67 for any listing of the folders of the sources, and for files the classes read like the ones that were written (`LikeRoot`): see C67_product_file. -/
theorem C67_listed (types : List (Text × Text)) (C : Text → Option Class) (g : V8.FormObj.Lim) (e : Env) (c : Cls) (ver : Text)
    (ord : Text → List Nested.Entry → List Nested.Entry) (shuf : List Text → List Text) (nm : Val → Text) (n : Nat) (info : Info) (dir dir' : Dir) (file fu u : Text)
    (dr dh : List (List Val)) (hC : ClassesOk C) (hE : e.x.E = envOf types C) (hy : e.y.E = e.x.E) (hp : e.y.p = e.x.p) (ha : e.y.auto = e.x.auto)
    (hv0 : e.x.valid [] = false) (hT : ∀ u, e.types u ≠ some "ConfigurationExtension".toList) (hsame : V8.Misc.checkVersion e.tool e.tool = .ok ())
    (hord : ∀ id l, (ord id l).Perm l) (hshuf : ∀ l, (shuf l).Perm l)
    (I : Inflater) (k : Disk) (hz : ZlibOk I k.D) (ht : TimesOk k)
    (old : Bytes) (L : Folder) (fuel steps deep : Nat) (hold : unwrap I fuel steps deep old = .ok [L]) (hL : FolderOk L)
    (hd : detect e (view L) = some (c, ver)) (hx : extractProduct e (handlers C g e.x e.y ver) c ver (view L) n = some (info, dir))
    (hok : ProductOk e c ver (view L) file fu u dr dh) (hin : InnerOk types C g e c ver (view L) nm dh)
    (R : Bool → (Text → Option Store.Node) → (Text → Option Store.Node) → Prop) (hR : ∀ p, Steady (handlers C g e.x { e.y with prod := p } ver) (view L) R)
    (hlike : LikeRoot (handlers C g e.x e.y ver) R dir dir') :
    ∃ files, buildProduct e (fun v p => handlers C g e.x { e.y with prod := p } v) ord shuf file dir' = some (c, files) ∧ (∃ l, OnDisk l files) ∧
      ∀ l, OnDisk l files → ((∀ s, stored k l = .ok s → (s.map (fun p => p.2.length + 4 * p.1.length + 800)).sum + 2000 < 2 ^ 31) → ∃ new, wrap k l = .ok new ∧ new.length < 2 ^ 31) ∧
        ∀ new, wrap k l = .ok new → new.length < 2 ^ 31 → ∀ fuel' steps' deep', 2 ^ 31 ≤ fuel' → 2 ≤ steps' →
          ∃ out, unwrap I fuel' steps' deep' new = .ok [out] ∧ (∀ m, (c ≠ .extension → m ≠ "versions".toList) → m ≠ "configinfo".toList →
            (m ∈ ownNames c u fu ∨ NestedNames C e c (view L) dh m → view out m = view L m) ∧
            (¬ (m ∈ ownNames c u fu ∨ NestedNames C e c (view L) dh m) → view out m = none)) ∧
          (c ≠ .extension → ¬ ("versions".toList ∈ ownNames c u fu ∨ NestedNames C e c (view L) dh "versions".toList) →
            ∃ names, names.Perm (files.map (·.1)) ∧ view out "versions".toList = some (.file (braceFile e.y.win (versionsTree e.rnd names))) ∧ ∀ m, m ∈ names ↔ view out m ≠ none) ∧
          (c ≠ .extension → ¬ ("configinfo".toList ∈ ownNames c u fu ∨ NestedNames C e c (view L) dh "configinfo".toList) → view out "configinfo".toList = none) ∧
          (c = .extension → ¬ ("configinfo".toList ∈ ownNames c u fu ∨ NestedNames C e c (view L) dh "configinfo".toList) →
            ∃ v row st b, Product.getAt (rootVal dr) [0, 1] = some v ∧ Product.getAt (rootVal dr) [1] = some (.list row) ∧ mapExcept (storedOf k) l = .ok st ∧ (∀ m, m ∈ st.map (·.1) ↔ view out m ≠ none) ∧
              stamped k st (braceFile e.y.win (newInfo v row)) = some b ∧ view out "configinfo".toList = some (.file b)) := by
  obtain ⟨files, names, h1, h2, h3⟩ := C62_listed types C g e c ver (view L) ord shuf nm n info dir dir' file fu u dr dh hC hE hy hp ha hv0 hT hsame hord hshuf hd hx hok hin R hR hlike
  have hfrom : ∀ m nd, (m, nd) ∈ files → view L m = some nd ∨ ((m = "versions".toList ∨ m = "configinfo".toList) ∧ ∃ d, nd = .file (braceFile e.y.win d)) := by
    intro m nd hm
    rcases (h3 m nd).mp hm with ⟨_, h⟩ | ⟨_, h⟩ | ⟨_, h, h'⟩ | ⟨_, h, v, row, _, _, h'⟩
    · exact .inl h
    · exact .inl h
    · exact .inr ⟨.inl h, _, h'⟩
    · exact .inr ⟨.inr h, _, h'⟩
  have hhead : fu ∈ ownNames c u fu := by
    unfold ownNames frontNames
    cases c <;> simp
  have hmem : (fu, Store.Node.file (braceFile e.y.win dh)) ∈ files := (h3 _ _).mpr (.inr (.inl ⟨hhead, hok.head⟩))
  refine ⟨files, h1, ?_, ?_⟩
  · obtain ⟨l, a, b, d⟩ := on_disk hL hfrom
    exact ⟨l, a, b, files, .refl _, d⟩
  intro l hl
  have hlok := folder_ok hL hl hfrom
  obtain ⟨fs', hperm, hview⟩ := hl.same
  constructor
  · intro hsz
    refine C65_wrap_succeeds k l ht hlok ?_ hsz
    intro he
    obtain ⟨nd, hnd⟩ := folder_has (hperm.mem_iff.mpr hmem)
    rw [← hview, he] at hnd
    cases hnd
  intro new hnew hlen fuel' steps' deep' hf' hs'
  obtain ⟨out, o1, o2, o3, o4⟩ := C65_wrap_unwrap I k l new hz ht hlok hnew hlen fuel' steps' deep' hf' hs'
  have hout : ∀ m, view out m ≠ none ↔ ∃ nd, (m, nd) ∈ files := by
    intro m
    have hv : view out m ≠ none ↔ m ∈ out.map (·.1) := view_iff m
    have hl' : view l m ≠ none ↔ m ∈ l.map (·.1) := view_iff m
    rw [hv, o2.mem_iff, ← hl', hview]
    constructor
    · intro h
      cases hf : folder (fs'.map (fun p => (p.1, some p.2))) m with
      | none => exact absurd hf h
      | some nd => exact ⟨nd, hperm.mem_iff.mp (folder_mem hf)⟩
    · rintro ⟨nd, hnd⟩ hn
      obtain ⟨nd', h'⟩ := folder_has (hperm.mem_iff.mpr hnd)
      rw [hn] at h'
      cases h'
  refine ⟨out, o1, fun m hm1 hm2 => ?_, ?_, ?_, ?_⟩
  · rw [o3 m hm2, hview]
    refine folder_of_mem (P := fun m => m ∈ ownNames c u fu ∨ NestedNames C e c (view L) dh m) ?_
    intro nd
    rw [hperm.mem_iff, h3]
    constructor
    · rintro (⟨a, b⟩ | ⟨a, b⟩ | ⟨a', a, _⟩ | ⟨_, a, _⟩)
      · exact ⟨.inr a, b⟩
      · exact ⟨.inl a, b⟩
      · exact absurd a (hm1 a')
      · exact absurd a hm2
    · rintro ⟨a | a, b⟩
      · exact .inr (.inl ⟨a, b⟩)
      · exact .inl ⟨a, b⟩
  · intro hc hno
    refine ⟨names, h2 hc, ?_, fun m => ?_⟩
    case refine_2 =>
      rw [hout, (h2 hc).mem_iff, List.mem_map]
      constructor
      · rintro ⟨⟨m', nd⟩, h, rfl⟩
        exact ⟨nd, h⟩
      · rintro ⟨nd, h⟩
        exact ⟨_, h, rfl⟩
    have hw : ("versions".toList, Store.Node.file (braceFile e.y.win (versionsTree e.rnd names))) ∈ files := (h3 _ _).mpr (.inr (.inr (.inl ⟨hc, rfl, rfl⟩)))
    obtain ⟨nd, hnd⟩ := folder_has (hperm.mem_iff.mpr hw)
    rw [o3 _ (by decide), hview, hnd]
    rcases (h3 _ _).mp (hperm.mem_iff.mp (folder_mem hnd)) with ⟨a, _⟩ | ⟨a, _⟩ | ⟨_, _, a⟩ | ⟨_, a, _⟩
    · exact absurd (.inr a) hno
    · exact absurd (.inl a) hno
    · rw [a]
    · exact absurd a (by decide)
  · intro hc hno
    refine Classical.byContradiction (fun h => ?_)
    obtain ⟨nd, hnd⟩ := (hout _).mp h
    rcases (h3 _ _).mp hnd with ⟨a, _⟩ | ⟨a, _⟩ | ⟨_, a, _⟩ | ⟨a, _⟩
    · exact hno (.inr a)
    · exact hno (.inl a)
    · exact absurd a (by decide)
    · exact hc a
  · intro hc hno
    subst hc
    obtain ⟨v0, row0, g1, g2⟩ := info_of hok hx
    have hw := (h3 "configinfo".toList _).mpr (.inr (.inr (.inr ⟨rfl, rfl, v0, row0, g1, g2, rfl⟩)))
    obtain ⟨nd, hnd⟩ := folder_has (hperm.mem_iff.mpr hw)
    rcases (h3 _ _).mp (hperm.mem_iff.mp (folder_mem hnd)) with ⟨a, _⟩ | ⟨a, _⟩ | ⟨_, a, _⟩ | ⟨_, _, v, row, a1, a2, a3⟩
    · exact absurd (.inr a) hno
    · exact absurd (.inl a) hno
    · exact absurd a (by decide)
    · subst a3
      rw [← hview] at hnd
      have hfind : find l V8.Misc.configinfoName = some (.file (braceFile e.y.win (newInfo v row))) := find_of hl.names (view_inv_file hnd)
      obtain ⟨st, b, b1, b2, b3⟩ := o4 _ hfind
      refine ⟨v, row, st, b, a1, a2, b1, fun m => ?_, b2, b3⟩
      rw [view_iff, o2.mem_iff, forall2_names (mapExcept_some l st b1)]

/-- **C67.**  From a product file to a product file.  Take a file that holds one container, whose files are those of a product with everything nested
in it, all in the layout of the serializer and fit (the hypotheses of C62, with the container as it is taken apart).  Its sources are built again, whatever
the order in which workers finish, the files are written and listed in whatever order, and wrapped into a new product file.  Taken apart, the new file has one
container, which holds every file of the old one that belongs to the product or to what is nested in it, with the same content, and nothing else but
`versions` (an extension: `configinfo`).  The new `versions` of a configuration, processor or report names exactly the files of the new container; the new `configinfo` of an
extension is the version row and the copyinfo of the old one with the table of digests of the stored files (C67_configinfo says how it reads). -/
theorem C67_product_file (types : List (Text × Text)) (C : Text → Option Class) (g : V8.FormObj.Lim) (e : Env) (c : Cls) (ver : Text)
    (ord : Text → List Nested.Entry → List Nested.Entry) (shuf : List Text → List Text) (nm : Val → Text) (n : Nat) (info : Info) (dir : Dir) (file fu u : Text)
    (dr dh : List (List Val)) (hC : ClassesOk C) (hE : e.x.E = envOf types C) (hy : e.y.E = e.x.E) (hp : e.y.p = e.x.p) (ha : e.y.auto = e.x.auto)
    (hv0 : e.x.valid [] = false) (hT : ∀ u, e.types u ≠ some "ConfigurationExtension".toList) (hsame : V8.Misc.checkVersion e.tool e.tool = .ok ())
    (hord : ∀ id l, (ord id l).Perm l) (hshuf : ∀ l, (shuf l).Perm l)
    (I : Inflater) (k : Disk) (hz : ZlibOk I k.D) (ht : TimesOk k)
    (old : Bytes) (L : Folder) (fuel steps deep : Nat) (hold : unwrap I fuel steps deep old = .ok [L]) (hL : FolderOk L)
    (hd : detect e (view L) = some (c, ver)) (hx : extractProduct e (handlers C g e.x e.y ver) c ver (view L) n = some (info, dir))
    (hok : ProductOk e c ver (view L) file fu u dr dh) (hin : InnerOk types C g e c ver (view L) nm dh) :
    ∃ files, buildProduct e (fun v p => handlers C g e.x { e.y with prod := p } v) ord shuf file dir = some (c, files) ∧ (∃ l, OnDisk l files) ∧
      ∀ l, OnDisk l files → ((∀ s, stored k l = .ok s → (s.map (fun p => p.2.length + 4 * p.1.length + 800)).sum + 2000 < 2 ^ 31) → ∃ new, wrap k l = .ok new ∧ new.length < 2 ^ 31) ∧
        ∀ new, wrap k l = .ok new → new.length < 2 ^ 31 → ∀ fuel' steps' deep', 2 ^ 31 ≤ fuel' → 2 ≤ steps' →
          ∃ out, unwrap I fuel' steps' deep' new = .ok [out] ∧ (∀ m, (c ≠ .extension → m ≠ "versions".toList) → m ≠ "configinfo".toList →
            (m ∈ ownNames c u fu ∨ NestedNames C e c (view L) dh m → view out m = view L m) ∧
            (¬ (m ∈ ownNames c u fu ∨ NestedNames C e c (view L) dh m) → view out m = none)) ∧
          (c ≠ .extension → ¬ ("versions".toList ∈ ownNames c u fu ∨ NestedNames C e c (view L) dh "versions".toList) →
            ∃ names, names.Perm (files.map (·.1)) ∧ view out "versions".toList = some (.file (braceFile e.y.win (versionsTree e.rnd names))) ∧ ∀ m, m ∈ names ↔ view out m ≠ none) ∧
          (c ≠ .extension → ¬ ("configinfo".toList ∈ ownNames c u fu ∨ NestedNames C e c (view L) dh "configinfo".toList) → view out "configinfo".toList = none) ∧
          (c = .extension → ¬ ("configinfo".toList ∈ ownNames c u fu ∨ NestedNames C e c (view L) dh "configinfo".toList) →
            ∃ v row st b, Product.getAt (rootVal dr) [0, 1] = some v ∧ Product.getAt (rootVal dr) [1] = some (.list row) ∧ mapExcept (storedOf k) l = .ok st ∧ (∀ m, m ∈ st.map (·.1) ↔ view out m ≠ none) ∧
              stamped k st (braceFile e.y.win (newInfo v row)) = some b ∧ view out "configinfo".toList = some (.file b)) :=
  C67_listed types C g e c ver ord shuf nm n info dir dir file fu u dr dh hC hE hy hp ha hv0 hT hsame hord hshuf I k hz ht old L fuel steps deep hold hL hd hx hok hin
    (fun _ S S' => S' = S) (fun _ => steady_eq _ _) (LikeRoot.refl _ (fun _ S S' => S' = S) (fun _ _ => rfl) dir)

theorem infix_cons {p x : Text} {c : Char} (hc : p.head? ≠ some c) (h : p <:+: c :: x) : p <:+: x := by
  obtain ⟨a, b, hab⟩ := h
  cases a with
  | cons d a => exact ⟨a, b, by injection hab⟩
  | nil =>
    cases p with
    | nil => exact List.nil_infix
    | cons d p =>
      injection hab with h1 h2
      exact absurd (congrArg some h1) hc

theorem infix_snoc {p x : Text} {c : Char} (hc : p.getLast? ≠ some c) (h : p <:+: x ++ [c]) : p <:+: x := by
  have h' := List.reverse_infix.mpr h
  rw [List.reverse_append, List.reverse_singleton] at h'
  exact List.reverse_infix.mp (infix_cons (by rw [List.head?_reverse]; exact hc) h')

/-- **C67, the description of an extension.**  The new `configinfo`, read as brace data, is the version row, the copyinfo and the table: number of files, name and
digest of each stored file but `configinfo` itself. -/
theorem C67_configinfo (k : Disk) (st : List (Text × Bytes)) (v : Val) (row : List Val) (hst : ∃ f ∈ st, f.1 ≠ V8.Misc.configinfoName)
    (hd : ∀ b, (k.digest b).length = 28 ∧ '#' ∉ k.digest b) (hr : '\r' ∉ encRoot [[.str ['0'], v], row])
    (hp : ¬ V8.Misc.placeholder <:+: encRoot [[.str ['0'], v], row]) :
    stamped k st (braceFile k.win (newInfo v row)) = some (braceFile k.win [[.str ['0'], v], row, V8.Misc.versionsList k.digest st]) := by
  obtain ⟨f, hf, hf2⟩ := hst
  have e1 : ∀ z : List Val, encRoot [[.str ['0'], v], row, z] = encRoot [[.str ['0'], v], row] ++ [',', '\n'] ++ encRoot [z] := by
    intro z
    simp only [encRoot, encRootWith, List.append_assoc, List.cons_append, List.nil_append]
  have hpre : ¬ V8.Misc.placeholder <:+: bom :: (encRoot [[.str ['0'], v], row] ++ [',', '\n']) := by
    intro h
    have h := infix_cons (by decide) h
    rw [show [',', '\n'] = [','] ++ ['\n'] from rfl, ← List.append_assoc] at h
    exact hp (infix_snoc (by decide) (infix_snoc (by decide) h))
  have h := C65_configinfo k st (bom :: (encRoot [[.str ['0'], v], row] ++ [',', '\n'])) [] f hf hf2 (hd f.2).1 (hd f.2).2 hpre (by decide) (by
    rw [List.append_nil]
    intro hm
    rcases List.mem_cons.mp hm with h | h
    · revert h; decide
    · rcases List.mem_append.mp h with h | h
      · exact hr h
      · revert h; decide)
  have e2 : ∀ z : List Val, braceFile k.win [[.str ['0'], v], row, z] =
      utf8 (osWrite k.win (bom :: (encRoot [[.str ['0'], v], row] ++ [',', '\n']) ++ encRoot [z])) := by
    intro z
    have hb : ∀ t : Text, bom :: osWrite k.win t = osWrite k.win (bom :: t) := by
      intro t
      have := osWrite_append k.win [bom] t
      rw [show osWrite k.win [bom] = [bom] by cases k.win <;> decide] at this
      exact this.symm
    rw [brace_utf8, e1, List.cons_append, hb]
  have e3 : V8.Misc.placeholder = encRoot [[.str "____versions____".toList]] := by decide +kernel
  unfold newInfo
  rw [e2, e2, ← e3]
  rw [List.append_nil, List.append_nil] at h
  exact h

end V8.Whole
