import Verif.Props.PipeSteady
import Verif.Props.Org
import Verif.Props.Whole
import Mathlib.Data.List.Dedup
/-
C68: extraction and build of a product with the organizer in between.
-/
namespace V8.Pipe
open V8.Str V8.Brace V8.Enc V8.JsonText V8.Header
open V8.Object hiding Cls
open V8.Misc (Cls)
open V8.Tree hiding Dir
open V8.Store hiding Kind nodeOf Node
open V8.Code (Dir)
open V8.FormJson
open V8.Nested (Obj Entry)
open V8.Root V8.Stage V8.Whole
open V8.Zlib (Inflater)

/-! ### the product itself -/

theorem root_plain (c : Cls) : ∀ n ∈ sourceNames c, V8.Org.isElem n = false := by cases c <;> decide +kernel

theorem root_src {e : V8.Root.Env} {c : Cls} {ver : Text} {F : Text → Option Store.Node} {info : Info} {os : List Obj} {src : List (Place Bytes)}
    (h : rootOut e c ver F = some (info, os, src)) : src.map (·.1) = sourceNames c := by
  obtain ⟨root, fu, v, hd, h', h1, b, paths, t, _, _, _, _, _, _, hb, _, _, rfl⟩ := rootOut_some h
  obtain ⟨front, other, compat, vb, parts, h1, h2, h3, h4, h5, rfl⟩ := besideOut_some hb
  have a4 := versionOut_shape h4
  obtain ⟨a5, a6, w5⟩ := partsOut_shape h5
  unfold sourceNames
  simp only [List.map_append, a4, a6]
  rfl

/-- what the build finds in the folder of the product and below, when the disk holds what extraction made -/
theorem root_like {C : Text → Option Class} {g : V8.FormObj.Lim} {e : V8.Root.Env} {c : Cls} {ver : Text} {F : Text → Option Store.Node} {n : Nat} {info : Info}
    {dir dir' : V8.Tree.Dir} {D : Disk} (hC : ClassesOk C) (hN : PlainNames C) (hF : DirsOk F)
    (hx : extractProduct e (handlers C g e.x e.y ver) c ver F n = some (info, dir)) (hh : Holds D [] dir) (hs : Shows D [] dir') :
    LikeRoot (handlers C g e.x e.y ver) Stands dir dir' := by
  unfold extractProduct at hx
  simp only [Option.bind_eq_some_iff] at hx
  obtain ⟨⟨info', os, src⟩, hroot, subs, hsubs, hx⟩ := hx
  by_cases hnod : (subs.map (fun s => (s.1, s.2.1))).Nodup
  case neg => rw [if_neg hnod] at hx; cases hx
  rw [if_pos hnod] at hx
  cases hx
  simp only at hh
  obtain ⟨files', subs'⟩ := dir'
  refine ⟨files', subs', rfl, ?_, ?_⟩
  · have hst : Stands true (folder (nodes src)) (folder files') := by
      cases hs with
      | mk hf' _ _ _ => exact ⟨fun n => files_alike hh hf' n, fun h => by cases h⟩
    exact stands_eq (no_elems (by rw [root_src hroot]; exact root_plain c)) hst
  · have hrec : ∀ q ∈ subs, Neat (handlers C g e.x e.y ver) q.1 q.2.2 := by
      intro q hq
      obtain ⟨o, _, info', h1, h2⟩ := kids_mem hsubs q hq
      rw [h1]
      exact (neat_of hC hN hF n _ _ _ _ _ h2).1
    refine shows_subs (fun m g => nodes_flat src m g) ?_ ?_ ?_ hh hs
    · rw [subs_ofList]; exact hnod
    · rw [subs_ofList]; exact hrec
    · rw [subs_ofList]; exact fun q hq {p d'} h1 h2 => shows_like (hrec q hq) h1 h2

/-- the files of elements below the folder of the product -/
theorem root_elems {C : Text → Option Class} {g : V8.FormObj.Lim} {e : V8.Root.Env} {c : Cls} {ver : Text} {F : Text → Option Store.Node} {n : Nat} {info : Info}
    {dir : V8.Tree.Dir} (hC : ClassesOk C) (hN : PlainNames C) (hF : DirsOk F)
    (hx : extractProduct e (handlers C g e.x e.y ver) c ver F n = some (info, dir)) : ∀ p m b, InDir dir p m b → V8.Org.isElem m = true → ElemFile b := by
  unfold extractProduct at hx
  simp only [Option.bind_eq_some_iff] at hx
  obtain ⟨⟨info', os, src⟩, hroot, subs, hsubs, hx⟩ := hx
  by_cases hnod : (subs.map (fun s => (s.1, s.2.1))).Nodup
  case neg => rw [if_neg hnod] at hx; cases hx
  rw [if_pos hnod] at hx
  cases hx
  intro p m b hin hm
  simp only at hin
  generalize hd : V8.Tree.Dir.mk (nodes src) (.ofList subs) = d at hin
  cases hin with
  | own hf =>
    cases hd
    have := no_elems (src := src) (by rw [root_src hroot]; exact root_plain c) m hm
    rw [fileIn_of (b := some b) hf] at this
    cases this
  | copied hf hg =>
    cases hd
    exact absurd hf (nodes_flat src _ _)
  | nested hq hin =>
    cases hd
    rw [subs_ofList] at hq
    obtain ⟨o, _, info', h1, h2⟩ := kids_mem hsubs _ hq
    exact (neat_of hC hN hF n _ _ _ _ _ h2).2 _ m b hin hm

/-! ### the organizer in between -/

/-- every file is seen -/
theorem seen_all {n : Text} {b : Bytes} (h : V8.Org.isElem n = true → ElemFile b) : ∃ c, Seen n b c := by
  unfold Seen
  by_cases hn : V8.Org.isElem n = true
  · obtain ⟨win, j, e, w, hb, he⟩ := h hn
    exact ⟨.elems e, by rw [if_pos hn]; exact ⟨j, e, by rw [hb, C58_round_trip win j w], he, rfl⟩⟩
  · exact ⟨.bytes b, by rw [if_neg hn]⟩

/-- what is written for a file that was seen stands for it -/
theorem seen_wrote {n : Text} {b b' : Bytes} {win : Bool} {c : V8.Org.Content JT} (h : V8.Org.isElem n = true → ElemFile b) (hs : Seen n b c) (hw : Wrote win c b') :
    Alike n b b' := by
  unfold Seen at hs
  by_cases hn : V8.Org.isElem n = true
  · rw [if_pos hn] at hs
    obtain ⟨j, e, h1, h2, rfl⟩ := hs
    obtain ⟨j', w', rfl, h3⟩ := hw
    obtain ⟨win0, j0, e0, w0, hb, he⟩ := h hn
    rw [hb, C58_round_trip win0 j0 w0] at h1
    cases h1
    exact .inr ⟨hn, j, j', e, by rw [hb, C58_round_trip win0 j w0], w0, C58_round_trip win j' w', w', h2, h3⟩
  · rw [if_neg hn] at hs
    subst hs
    exact .inl hw

/-- the disk holds what was extracted -/
theorem holds_of {dir : V8.Tree.Dir} {l : List (V8.Org.Item JT)} {win : Bool} {d : Dir × Text → Option (V8.Org.Content JT)} {D : Disk} (hl : Found dir l)
    (hel : ∀ p m b, InDir dir p m b → V8.Org.isElem m = true → ElemFile b) (hd : ∀ p n c, d (p, n) = some c ↔ (p, n, c) ∈ l) (hD : Saved win d D) :
    Holds D [] dir := by
  constructor
  · intro q n b' h
    rw [List.nil_append] at h
    cases hc : d (q, n) with
    | none =>
      rw [(hD (q, n)).1 hc] at h
      cases h
    | some c =>
      obtain ⟨b2, h2, h3⟩ := (hD (q, n)).2 c hc
      rw [h] at h2
      cases h2
      obtain ⟨b, h4, h5⟩ := (hl q n c).mp ((hd q n c).mp hc)
      exact ⟨b, h4, seen_wrote (hel q n b h4) h5 h3⟩
  · intro q n b h
    obtain ⟨c, hc⟩ := seen_all (hel q n b h)
    obtain ⟨b', h1, h2⟩ := (hD (q, n)).2 c ((hd q n c).mpr ((hl q n c).mpr ⟨b, h, hc⟩))
    exact ⟨b', by rw [List.nil_append]; exact h1, seen_wrote (hel q n b h) hc h2⟩

/-- there are files that hold what the organizer built -/
theorem saved_exists {dir : V8.Tree.Dir} {l : List (V8.Org.Item JT)} (win : Bool) {d : Dir × Text → Option (V8.Org.Content JT)} (hl : Found dir l)
    (hel : ∀ p m b, InDir dir p m b → V8.Org.isElem m = true → ElemFile b) (hd : ∀ p n c, d (p, n) = some c ↔ (p, n, c) ∈ l) :
    ∃ D, Saved win d D := by
  have key : ∀ f : Dir × Text, ∃ o : Option Bytes, (d f = none → o = none) ∧ ∀ c, d f = some c → ∃ b, o = some b ∧ Wrote win c b := by
    rintro ⟨p, n⟩
    cases hc : d (p, n) with
    | none => exact ⟨none, fun _ => rfl, fun c h => by cases h⟩
    | some c =>
      obtain ⟨b, h1, h2⟩ := (hl p n c).mp ((hd p n c).mp hc)
      unfold Seen at h2
      by_cases hn : V8.Org.isElem n = true
      · rw [if_pos hn] at h2
        obtain ⟨j, e, h3, h4, rfl⟩ := h2
        obtain ⟨win0, j0, e0, w0, hb, he⟩ := hel p n b h1 hn
        rw [hb, C58_round_trip win0 j0 w0] at h3
        cases h3
        refine ⟨some (fileOf win j), (fun h => by cases h), fun c h => ?_⟩
        cases h
        exact ⟨_, rfl, j, w0, rfl, h4⟩
      · rw [if_neg hn] at h2
        subst h2
        refine ⟨some b, (fun h => by cases h), fun c h => ?_⟩
        cases h
        exact ⟨_, rfl, rfl⟩
  exact ⟨fun f => (key f).choose, fun f => (key f).choose_spec⟩

/-- the build finds something: a disk with finitely many files is read as a tree -/
theorem shows_exists {D : Disk} {sup : List (Dir × Text)} (hsup : ∀ f, D f ≠ none → f ∈ sup) :
    ∀ (k : Nat) (p : Dir), (∀ q n, D (p ++ q, n) ≠ none → q.length < k) → ∃ d, Shows D p d
  | 0, p, h => ⟨.mk [] .nil, .mk (fun n => by
      have h0 : ∀ q x, D (p ++ q, x) = none := fun q x => by
        cases hD : D (p ++ q, x) with
        | none => rfl
        | some b => exact absurd (h q x (by rw [hD]; exact fun h => by cases h)) (Nat.not_lt_zero _)
      unfold nodeAt
      have h1 := h0 [] n
      rw [List.append_nil] at h1
      rw [h1]
      simp only
      rw [if_neg (fun ⟨x, hx⟩ => hx (h0 _ x))]
      rfl) List.nodup_nil (fun ty nm => ⟨(fun h => by cases h), fun ⟨q, n, hD⟩ => absurd (h _ n hD) (Nat.not_lt_zero _)⟩) (fun q hq => by cases hq)⟩
  | k + 1, p, h => by
    classical
    -- the entries of the folder
    let names : List Text := sup.map (·.2) ++ sup.map (fun f => join '/' (f.1.drop p.length))
    let files : List (Place Store.Node) := names.map (fun n => (n, nodeAt D p n))
    have hfiles : ∀ n, folder files n = nodeAt D p n := by
      intro n
      cases hf : folder files n with
      | some nd =>
        obtain ⟨m, _, he⟩ := List.mem_map.mp (folder_mem' hf)
        simp only [Prod.mk.injEq] at he
        rw [← he.1]
        exact he.2.symm
      | none =>
        cases hn : nodeAt D p n with
        | none => rfl
        | some nd =>
          exfalso
          have hmem : n ∈ names := by
            unfold nodeAt at hn
            cases hD : D (p, n) with
            | some b => exact List.mem_append_left _ (List.mem_map.mpr ⟨(p, n), hsup _ (by rw [hD]; exact fun h => by cases h), rfl⟩)
            | none =>
              rw [hD] at hn
              simp only at hn
              by_cases hex : ∃ x, D (p ++ split '/' n, x) ≠ none
              · obtain ⟨x, hx⟩ := hex
                refine List.mem_append_right _ (List.mem_map.mpr ⟨(p ++ split '/' n, x), hsup _ hx, ?_⟩)
                show join '/' ((p ++ split '/' n).drop p.length) = n
                rw [List.drop_left, join_split]
              · rw [if_neg hex] at hn
                cases hn
          have hw : (n, nd) ∈ written files := by
            unfold written
            rw [List.mem_filterMap]
            exact ⟨(n, nodeAt D p n), List.mem_map.mpr ⟨n, hmem, rfl⟩, by rw [hn]; rfl⟩
          unfold folder at hf
          rw [Option.map_eq_none_iff, List.find?_eq_none] at hf
          exact hf _ (List.mem_reverse.mpr hw) (decide_eq_true rfl)
    -- the folders of nested objects
    let keys : List (Text × Text) := (sup.filterMap (fun f => if D f = none then none else if p <+: f.1 then match f.1.drop p.length with
      | ty :: nm :: _ => some (ty, nm)
      | _ => none else none)).dedup
    have hkeys : ∀ ty nm, (ty, nm) ∈ keys ↔ ∃ q n, D (p ++ ty :: nm :: q, n) ≠ none := by
      intro ty nm
      show (ty, nm) ∈ List.dedup _ ↔ _
      rw [List.mem_dedup, List.mem_filterMap]
      constructor
      · rintro ⟨⟨f, n⟩, _, he⟩
        by_cases hD : D (f, n) = none
        · rw [if_pos hD] at he; cases he
        rw [if_neg hD] at he
        by_cases hp : p <+: f
        · rw [if_pos hp] at he
          obtain ⟨r, rfl⟩ := hp
          simp only [List.drop_left] at he
          match r, he with
          | t :: m :: q, he =>
            simp only [Option.some.injEq, Prod.mk.injEq] at he
            obtain ⟨rfl, rfl⟩ := he
            exact ⟨q, n, hD⟩
          | [], he => cases he
          | [_], he => cases he
        · rw [if_neg hp] at he; cases he
      · rintro ⟨q, n, hD⟩
        refine ⟨(p ++ ty :: nm :: q, n), hsup _ hD, ?_⟩
        rw [if_neg hD, if_pos (List.prefix_append _ _)]
        simp only [List.drop_left]
    have hsub : ∀ a : Text × Text, ∃ d, Shows D (p ++ [a.1, a.2]) d := fun a => shows_exists hsup k _ (fun q n hD => by
      have := h (a.1 :: a.2 :: q) n (by rw [List.append_assoc] at hD; exact hD)
      rw [List.length_cons, List.length_cons] at this
      omega)
    refine ⟨.mk files (.ofList (keys.map (fun a => (a.1, a.2, (hsub a).choose)))), .mk hfiles ?_ ?_ ?_⟩
    · rw [subs_ofList, List.map_map]
      show (List.map (fun a => a) keys).Nodup
      rw [List.map_id']
      exact List.nodup_dedup _
    · intro ty nm
      rw [subs_ofList, List.map_map]
      show (ty, nm) ∈ List.map (fun a => a) keys ↔ _
      rw [List.map_id']
      exact hkeys ty nm
    · intro q hq
      rw [subs_ofList] at hq
      obtain ⟨a, _, rfl⟩ := List.mem_map.mp hq
      exact (hsub a).choose_spec

/-! ### C68 -/

theorem depth_bound (l : List (V8.Org.Item JT)) : ∃ k, ∀ i ∈ l, i.1.length < k := by
  induction l with
  | nil => exact ⟨0, fun i hi => by cases hi⟩
  | cons a r ih =>
    obtain ⟨k, hk⟩ := ih
    refine ⟨k + a.1.length + 1, fun i hi => ?_⟩
    rcases List.mem_cons.mp hi with rfl | hi
    · omega
    · have := hk i hi
      omega

/-- **C68, whatever laid the files out.**  Any folder `packed` of files that the organizer put together, as long as they are those that extraction decoded: it can be
read by the build, and the new product file holds what C67 says. -/
theorem C68_any_layout (types : List (Text × Text)) (C : Text → Option Class) (g : V8.FormObj.Lim) (e : V8.Root.Env) (c : Cls) (ver : Text)
    (ord : Text → List Nested.Entry → List Nested.Entry) (shuf : List Text → List Text) (nm : Val → Text) (n : Nat) (info : Info) (dir : V8.Tree.Dir) (file fu u : Text)
    (dr dh : List (List Val)) (hC : ClassesOk C) (hN : PlainNames C) (hE : e.x.E = envOf types C) (hy : e.y.E = e.x.E) (hp : e.y.p = e.x.p) (ha : e.y.auto = e.x.auto)
    (hv0 : e.x.valid [] = false) (hT : ∀ u, e.types u ≠ some "ConfigurationExtension".toList) (hsame : V8.Misc.checkVersion e.tool e.tool = .ok ())
    (hord : ∀ id l, (ord id l).Perm l) (hshuf : ∀ l, (shuf l).Perm l)
    (I : Inflater) (k : V8.Stage.Disk) (hz : ZlibOk I k.D) (ht : TimesOk k)
    (old : Bytes) (L : Folder) (fuel steps deep : Nat) (hold : unwrap I fuel steps deep old = .ok [L]) (hL : FolderOk L) (hdirs : DirsOk (view L))
    (hd : detect e (view L) = some (c, ver)) (hx : extractProduct e (handlers C g e.x e.y ver) c ver (view L) n = some (info, dir))
    (hok : ProductOk e c ver (view L) file fu u dr dh) (hin : InnerOk types C g e c ver (view L) nm dh)
    (win : Bool) (src : List (V8.Org.Item JT)) (hsrc : Found dir src) (packed : Dir × Text → Option (V8.Org.Content JT))
    (h2 : ∀ p n c, packed (p, n) = some c ↔ (p, n, c) ∈ src) :
    (∃ D, Saved win packed D) ∧ ∀ D, Saved win packed D → (∃ dir', Shows D [] dir') ∧
      ∀ dir', Shows D [] dir' →
        ∃ files, buildProduct e (fun v p => handlers C g e.x { e.y with prod := p } v) ord shuf file dir' = some (c, files) ∧ (∃ l, OnDisk l files) ∧
          ∀ l, OnDisk l files → ((∀ s, stored k l = .ok s → (s.map (fun p => p.2.length + 4 * p.1.length + 800)).sum + 2000 < 2 ^ 31) → ∃ new, wrap k l = .ok new ∧ new.length < 2 ^ 31) ∧
            ∀ new, wrap k l = .ok new → new.length < 2 ^ 31 → ∀ fuel' steps' deep', 2 ^ 31 ≤ fuel' → 2 ≤ steps' →
              ∃ out, unwrap I fuel' steps' deep' new = .ok [out] ∧ (∀ m, (c ≠ .extension → m ≠ "versions".toList) → m ≠ "configinfo".toList →
                (m ∈ ownNames c u fu ∨ NestedNames C e c (view L) dh m → view out m = view L m) ∧
                (¬ (m ∈ ownNames c u fu ∨ NestedNames C e c (view L) dh m) → view out m = none)) ∧
              (c ≠ .extension → ¬ ("versions".toList ∈ ownNames c u fu ∨ NestedNames C e c (view L) dh "versions".toList) →
                ∃ names, names.Perm (files.map (·.1)) ∧ view out "versions".toList = some (.file (braceFile e.y.win (versionsTree e.rnd names))) ∧ ∀ m, m ∈ names ↔ view out m ≠ none) ∧
              (c ≠ .extension → ¬ ("configinfo".toList ∈ ownNames c u fu ∨ NestedNames C e c (view L) dh "configinfo".toList) → view out "configinfo".toList = none) ∧
              (c = .extension → ¬ ("configinfo".toList ∈ ownNames c u fu ∨ NestedNames C e c (view L) dh "configinfo".toList) →
                ∃ v row st b, Product.getAt (rootVal dr) [0, 1] = some v ∧ Product.getAt (rootVal dr) [1] = some (.list row) ∧ mapExcept (Stage.storedOf k) l = .ok st ∧ (∀ m, m ∈ st.map (·.1) ↔ view out m ≠ none) ∧
                  stamped k st (braceFile e.y.win (newInfo v row)) = some b ∧ view out "configinfo".toList = some (.file b)) := by
  have hel := root_elems hC hN hdirs hx
  refine ⟨saved_exists win hsrc hel h2, fun D hD => ⟨?_, fun dir' hs => ?_⟩⟩
  · have hsup : ∀ f, D f ≠ none → f ∈ src.map (fun i => (i.1, i.2.1)) := by
      rintro ⟨p, m⟩ hf
      cases hc : packed (p, m) with
      | none => exact absurd ((hD (p, m)).1 hc) hf
      | some x => exact List.mem_map.mpr ⟨_, (h2 p m x).mp hc, rfl⟩
    obtain ⟨kk, hkk⟩ := depth_bound src
    refine shows_exists hsup kk [] (fun q m hq => ?_)
    obtain ⟨i, hi, he⟩ := List.mem_map.mp (hsup _ hq)
    simp only [List.nil_append, Prod.mk.injEq] at he
    have := hkk i hi
    rw [he.1] at this
    exact this
  · exact C67_listed types C g e c ver ord shuf nm n info dir dir' file fu u dr dh hC hE hy hp ha hv0 hT hsame hord hshuf I k hz ht old L fuel steps deep hold hL hd hx hok hin
      Stands (fun p => steady_stands g e.x { e.y with prod := p } ver (view L) hN) (root_like hC hN hdirs hx (holds_of hsrc hel h2 hD) hs)

/-- **C68.**  `extract` and then `build`, with everything in between.  Take a product file as in C67.  The sources are laid out by the organizer (in whatever
order its tasks finish), modules and forms with their include areas outside of the folder of the sources included, as far as the organizer can do so (C66).  Then
the organizer puts them together again (in whatever order the folder is listed) and does not fail; whatever JSON it writes for the elements of forms, the folder can be
read by the build, and however the build lists it, the new product file holds what C67 says. -/
theorem C68_extract_build (types : List (Text × Text)) (C : Text → Option Class) (g : V8.FormObj.Lim) (e : V8.Root.Env) (c : Cls) (ver : Text)
    (ord : Text → List Nested.Entry → List Nested.Entry) (shuf : List Text → List Text) (nm : Val → Text) (n : Nat) (info : Info) (dir : V8.Tree.Dir) (file fu u : Text)
    (dr dh : List (List Val)) (hC : ClassesOk C) (hN : PlainNames C) (hE : e.x.E = envOf types C) (hy : e.y.E = e.x.E) (hp : e.y.p = e.x.p) (ha : e.y.auto = e.x.auto)
    (hv0 : e.x.valid [] = false) (hT : ∀ u, e.types u ≠ some "ConfigurationExtension".toList) (hsame : V8.Misc.checkVersion e.tool e.tool = .ok ())
    (hord : ∀ id l, (ord id l).Perm l) (hshuf : ∀ l, (shuf l).Perm l)
    (I : Inflater) (k : V8.Stage.Disk) (hz : ZlibOk I k.D) (ht : TimesOk k)
    (old : Bytes) (L : Folder) (fuel steps deep : Nat) (hold : unwrap I fuel steps deep old = .ok [L]) (hL : FolderOk L) (hdirs : DirsOk (view L))
    (hd : detect e (view L) = some (c, ver)) (hx : extractProduct e (handlers C g e.x e.y ver) c ver (view L) n = some (info, dir))
    (hok : ProductOk e c ver (view L) file fu u dr dh) (hin : InnerOk types C g e c ver (view L) nm dh)
    (s : V8.Org.Sys) (w w' : V8.Org.World JT) (src : List (V8.Org.Item JT)) (hsrc : Found dir src) (M : Dir → Text → List V8.Code.Node)
    (E : Dir → Text → V8.Areas.Elems JT) (hready : V8.Org.Ready namesOf s w src M E) (hun : V8.Org.Unpacked namesOf s w src w')
    (ls : List (Dir × Text)) (hls : V8.Org.Listing s w' ls) (areas : Nat) (hareas : ∀ i ∈ src, V8.Org.isCode i.2.1 = true → V8.Code.nodesDepth (M i.1 i.2.1) < areas) :
    (∀ p m b, InDir dir p m b → ∃ x, (p, m, x) ∈ src) ∧
    ∃ packed, V8.Org.pack namesOf s w' areas ls = some packed ∧ (∃ D, Saved s.win packed D) ∧ ∀ D, Saved s.win packed D → (∃ dir', Shows D [] dir') ∧
      ∀ dir', Shows D [] dir' →
        ∃ files, buildProduct e (fun v p => handlers C g e.x { e.y with prod := p } v) ord shuf file dir' = some (c, files) ∧ (∃ l, OnDisk l files) ∧
          ∀ l, OnDisk l files → ((∀ s, stored k l = .ok s → (s.map (fun p => p.2.length + 4 * p.1.length + 800)).sum + 2000 < 2 ^ 31) → ∃ new, wrap k l = .ok new ∧ new.length < 2 ^ 31) ∧
            ∀ new, wrap k l = .ok new → new.length < 2 ^ 31 → ∀ fuel' steps' deep', 2 ^ 31 ≤ fuel' → 2 ≤ steps' →
              ∃ out, unwrap I fuel' steps' deep' new = .ok [out] ∧ (∀ m, (c ≠ .extension → m ≠ "versions".toList) → m ≠ "configinfo".toList →
                (m ∈ ownNames c u fu ∨ NestedNames C e c (view L) dh m → view out m = view L m) ∧
                (¬ (m ∈ ownNames c u fu ∨ NestedNames C e c (view L) dh m) → view out m = none)) ∧
              (c ≠ .extension → ¬ ("versions".toList ∈ ownNames c u fu ∨ NestedNames C e c (view L) dh "versions".toList) →
                ∃ names, names.Perm (files.map (·.1)) ∧ view out "versions".toList = some (.file (braceFile e.y.win (versionsTree e.rnd names))) ∧ ∀ m, m ∈ names ↔ view out m ≠ none) ∧
              (c ≠ .extension → ¬ ("configinfo".toList ∈ ownNames c u fu ∨ NestedNames C e c (view L) dh "configinfo".toList) → view out "configinfo".toList = none) ∧
              (c = .extension → ¬ ("configinfo".toList ∈ ownNames c u fu ∨ NestedNames C e c (view L) dh "configinfo".toList) →
                ∃ v row st b, Product.getAt (rootVal dr) [0, 1] = some v ∧ Product.getAt (rootVal dr) [1] = some (.list row) ∧ mapExcept (Stage.storedOf k) l = .ok st ∧ (∀ m, m ∈ st.map (·.1) ↔ view out m ≠ none) ∧
                  stamped k st (braceFile e.y.win (newInfo v row)) = some b ∧ view out "configinfo".toList = some (.file b)) := by
  have hel := root_elems hC hN hdirs hx
  refine ⟨fun p m b h => ?_, ?_⟩
  · obtain ⟨x, hx'⟩ := seen_all (hel p m b h)
    exact ⟨x, (hsrc p m x).mpr ⟨b, h, hx'⟩⟩
  obtain ⟨packed, h1, h2⟩ := V8.Org.C66_folder_back namesOf s w w' src M E hready hun ls hls areas hareas
  exact ⟨packed, h1, C68_any_layout types C g e c ver ord shuf nm n info dir file fu u dr dh hC hN hE hy hp ha hv0 hT hsame hord hshuf I k hz ht old L fuel steps deep hold hL hdirs hd hx hok hin
    s.win src hsrc packed h2⟩

end V8.Pipe
