import Verif.Props.Tree
/-
C81: a module is edited in the sources: the build writes the new text in the place of this one module and everything else as before.
-/
namespace V8.Edit
open V8.Brace V8.Enc V8.JsonText V8.Header V8.Object V8.Store V8.Tree V8.Module
open V8.Nested hiding Handler

/-! ### specification -/

/-- the stored module `nd` with another text: a file, or the file `text` of a folder -/
def withText (b : Bytes) : Node → Node
  | .file _ => .file b
  | .dir f => .dir (fun m => if m = "text".toList then some b else f m)

/-- the files `fs'` are the files `fs`, but the module `x` has the text `b` -/
def OnlyText (x : Text) (b : Bytes) (fs fs' : List (Text × Node)) : Prop := ∃ a r old, fs = a ++ (x, old) :: r ∧ fs' = a ++ (x, withText b old) :: r

/-- the bytes `b` hold the text `t` in the encoding `e` with the line ends of the platform -/
def Holds (win : Bool) (e : EncName) (t : Text) (b : Bytes) : Prop := match e with
  | .utf8 => b = utf8 (osWrite win t)
  | .utf8sig => b = bom8 ++ utf8 (osWrite win t)
  | .cp1251 => cpBytes (osWrite win t) = some b
  | _ => False

/-- a file saved by an editor: UTF-8 with or without a byte order mark, any line ends; `t` is its text -/
def Saved (b : Bytes) (t : Text) : Prop := ∃ r, utf8SigText b = some r ∧ universal r = t

/-- the classes whose modules are files of their own -/
def kindIn : Class → Option Kind
  | .file k => some k
  | .pick _ k _ => some k
  | .inner k => some k
  | _ => none

/-- In the folder of an object of the type `ty` with the identifier `u` the module `c` (name in the sources, number in the product), which the product keeps in the encoding
`e`, is edited: `S` is the folder before and `S'` after, `t` is the new text. -/
structure ModuleEdit (C : Text → Option Class) (u : Text) (c : Text × Text) (e : EncName) (t : Text) (ty : Text) (S S' : Text → Option Node) : Prop where
  cls : ∃ cl k, C ty = some cl ∧ kindIn cl = some k ∧ c ∈ k.codes ∧
    (∃ bi j, S (k.name ++ ".id.json".toList) = some (.file bi) ∧ readFile bi = some j ∧ textAt j "uuid".toList = some u) ∧
    (∃ bo j i, S (k.name ++ ".json".toList) = some (.file bo) ∧ readFile bo = some j ∧ codeInfo j c.1 = some (some i) ∧ encOf j c.1 = some e) ∧
    (∀ m, m ≠ k.name ++ '.' :: c.1 ++ ".bsl".toList → S' m = S m) ∧
    ∃ nb, S' (k.name ++ '.' :: c.1 ++ ".bsl".toList) = some (.file nb) ∧ Saved nb t
  text : e ≠ .bin

/-- the tree `d'` of source folders is the tree `d`, but the files of one object, of the type given, are `S'` instead of `S`, related by `R`; all objects it is in are part of the
product -/
inductive Edited (K : Text → Option Handler) (R : Text → (Text → Option Node) → (Text → Option Node) → Prop) : Text → Dir → Dir → Prop where
  | here {ty : Text} {files files' : List (Place Node)} {subs : Subs} (h : R ty (folder files) (folder files')) : Edited K R ty (.mk files subs) (.mk files' subs)
  | deeper {ty : Text} {h : Handler} {files : List (Place Node)} {l r : List (Text × Text × Dir)} {sty snm : Text} {d d' : Dir} (hk : K ty = some h) (hh : h.has (folder files) = true)
      (hn : h.kids = true) (hd : Edited K R sty d d') : Edited K R ty (.mk files (.ofList (l ++ (sty, snm, d) :: r))) (.mk files (.ofList (l ++ (sty, snm, d') :: r)))

/-! ### lists of files -/

theorem OnlyText.append {x : Text} {b : Bytes} {fs fs' : List (Text × Node)} (h : OnlyText x b fs fs') (l r : List (Text × Node)) :
    OnlyText x b (l ++ fs ++ r) (l ++ fs' ++ r) := by
  obtain ⟨a, c, old, rfl, rfl⟩ := h
  exact ⟨l ++ a, c ++ r, old, by simp only [List.append_assoc, List.cons_append], by simp only [List.append_assoc, List.cons_append]⟩

theorem OnlyText.names {x : Text} {b : Bytes} {fs fs' : List (Text × Node)} (h : OnlyText x b fs fs') : fs'.map (·.1) = fs.map (·.1) := by
  obtain ⟨a, c, old, rfl, rfl⟩ := h
  simp only [List.map_append, List.map_cons]

/-! ### one module -/

theorem Holds.write {win : Bool} {e : EncName} {t : Text} {b : Bytes} (h : Holds win e t b) : writeText win e t = some b := by
  unfold Holds at h
  cases e with
  | utf8 => exact congrArg some h.symm
  | utf8sig => exact congrArg some h.symm
  | cp1251 => exact h
  | utf16 => exact h.elim
  | utf32 => exact h.elim
  | bin => exact h.elim

/-- the module as it is built with the text `b` -/
noncomputable def madeOf (win : Bool) (i : Option (List (List Val))) (b : Bytes) : Node := match i with
  | none => .file b
  | some i => .dir (modDir (braceFile win i) b)

theorem withText_made (win : Bool) (i : Option (List (List Val))) (b b' : Bytes) : withText b' (madeOf win i b) = madeOf win i b' := by
  cases i with
  | none => rfl
  | some i =>
    unfold madeOf withText modDir
    simp only [Node.dir.injEq]
    funext m
    by_cases h1 : m = "text".toList
    · rw [if_pos h1, h1, if_neg (by decide), if_pos rfl]
    · rw [if_neg h1]
      by_cases h2 : m = "info".toList
      · rw [if_pos h2, if_pos h2]
      · rw [if_neg h2, if_neg h2, if_neg h1, if_neg h1]

theorem build_made {win cd : Bool} {i : Option (List (List Val))} {e : EncName} {s bl : Option Bytes} {st : Stored} (h : buildModule win cd ⟨some i, e, s, bl⟩ = some st) :
    ∃ b, nodeOf win st = some (madeOf win i b) := by
  unfold buildModule at h
  simp only at h
  cases hr : readCode ⟨some i, e, s, bl⟩ with
  | none => rw [hr] at h; cases h
  | some code =>
    rw [hr] at h
    simp only at h
    cases hw : writeCode win cd e code with
    | none => rw [hw] at h; cases h
    | some b =>
      rw [hw] at h
      cases i with
      | none => rw [← Option.some.inj h]; exact ⟨b, rfl⟩
      | some i => rw [← Option.some.inj h]; exact ⟨b, rfl⟩

theorem build_text {win cd : Bool} (i : Option (List (List Val))) {e : EncName} {nb b : Bytes} {bl : Option Bytes} {t : Text} (he : e ≠ .bin) (hs : Saved nb t)
    (hb : Holds win e (if cd then comment t else t) b) : ∃ st, buildModule win cd ⟨some i, e, some nb, bl⟩ = some st ∧ nodeOf win st = some (madeOf win i b) := by
  obtain ⟨r, h1, h2⟩ := hs
  have hr : readCode ⟨some i, e, some nb, bl⟩ = some (.text t) := by
    unfold readCode
    simp only
    rw [if_neg he, h1]
    simp only [Option.map_some, h2]
  have hw : writeCode win cd e (.text t) = some b := by
    unfold writeCode
    simp only
    rw [if_neg he, hb.write]
  unfold buildModule
  simp only [hr, hw]
  cases i with
  | none => exact ⟨_, rfl, rfl⟩
  | some i => exact ⟨_, rfl, rfl⟩

theorem codeIn_rest {win cd : Bool} {k : Text} {S S' : Text → Option Bytes} {j : JT} {u : Text} {c : Text × Text} (h1 : S' (bslName k c.1) = S (bslName k c.1))
    (h2 : S' (binName k c.1) = S (binName k c.1)) : codeIn win cd k S' j u c = codeIn win cd k S j u c := by
  unfold codeIn
  rw [h1, h2]

theorem codesIn_rest {win cd : Bool} {k : Text} {S S' : Text → Option Bytes} {j : JT} {u : Text} : ∀ {l : List (Text × Text)},
    (∀ c ∈ l, S' (bslName k c.1) = S (bslName k c.1) ∧ S' (binName k c.1) = S (binName k c.1)) → codesIn win cd k S' j u l = codesIn win cd k S j u l
  | [], _ => rfl
  | c :: l, h => by
    rw [codesIn, codesIn, codeIn_rest (h c List.mem_cons_self).1 (h c List.mem_cons_self).2, codesIn_rest (fun c hc => h c (List.mem_cons_of_mem _ hc))]

/-- the modules of an object, one of which is edited -/
theorem codesIn_edit {win cd : Bool} {k : Text} {S S' : Text → Option Bytes} {j : JT} {u : Text} {c : Text × Text} {i : Option (List (List Val))} {e : EncName} {nb b : Bytes} {t : Text}
    (hi : codeInfo j c.1 = some (some i)) (he : encOf j c.1 = some e) (hne : e ≠ .bin) (hS : ∀ m, m ≠ bslName k c.1 → S' m = S m)
    (hnb : S' (bslName k c.1) = some nb) (hs : Saved nb t) (hb : Holds win e (if cd then comment t else t) b) :
    ∀ {l : List (Text × Text)} {r : List (Place Node)}, (l.flatMap (fun c => [bslName k c.1, binName k c.1])).Nodup → c ∈ l → codesIn win cd k S j u l = some r →
    ∃ p q old, r = p ++ (dot u c.2, some old) :: q ∧ codesIn win cd k S' j u l = some (p ++ (dot u c.2, some (withText b old)) :: q)
  | [], _, _, hm, _ => by cases hm
  | a :: l, r, hn, hm, h => by
    rw [codesIn, Option.bind_eq_some_iff] at h
    obtain ⟨x, hx, h⟩ := h
    rw [Option.map_eq_some_iff] at h
    obtain ⟨y, hy, rfl⟩ := h
    rw [List.flatMap_cons, List.nodup_append] at hn
    obtain ⟨hn1, hn2, hn3⟩ := hn
    have hbin : binName k c.1 ≠ bslName k c.1 := by
      intro hh
      have := dot_inj hh
      exact absurd this (by decide)
    rcases List.mem_cons.mp hm with rfl | hm
    · have hrest : codesIn win cd k S' j u l = some y := by
        rw [codesIn_rest, hy]
        intro c' hc'
        have : ∀ m ∈ [bslName k c'.1, binName k c'.1], m ≠ bslName k c.1 := by
          intro m hmm hh
          refine hn3 (bslName k c.1) List.mem_cons_self m ?_ hh.symm
          exact List.mem_flatMap.mpr ⟨c', hc', hmm⟩
        exact ⟨hS _ (this _ List.mem_cons_self), hS _ (this _ (List.mem_cons_of_mem _ List.mem_cons_self))⟩
      unfold codeIn at hx
      rw [hi, he] at hx
      simp only [Option.bind_some, Option.map_eq_some_iff] at hx
      obtain ⟨st, hst, rfl⟩ := hx
      obtain ⟨b0, hb0⟩ := build_made hst
      refine ⟨[], y, madeOf win i b0, by rw [hb0]; rfl, ?_⟩
      obtain ⟨st', h1, h2⟩ := build_text (win := win) (cd := cd) i (bl := S' (binName k c.1)) hne hs hb
      rw [codesIn, hrest]
      unfold codeIn
      rw [hi, he, hnb]
      simp only [Option.bind_some, h1, Option.map_some, h2, withText_made, List.nil_append]
    · obtain ⟨p, q, old, rfl, h2⟩ := codesIn_edit hi he hne hS hnb hs hb hn2 hm hy
      refine ⟨x :: p, q, old, rfl, ?_⟩
      have : ∀ m ∈ [bslName k a.1, binName k a.1], m ≠ bslName k c.1 := by
        intro m hmm hh
        exact hn3 m hmm _ (List.mem_flatMap.mpr ⟨c, hm, List.mem_cons_self⟩) hh
      rw [codesIn, codeIn_rest (hS _ (this _ List.mem_cons_self)) (hS _ (this _ (List.mem_cons_of_mem _ List.mem_cons_self))), hx, Option.bind_some, h2]
      rfl

theorem written_edit {x : Text} {b : Bytes} {p q l r : List (Place Node)} {old : Node} :
    OnlyText x b (written (l ++ (p ++ (x, some old) :: q) ++ r)) (written (l ++ (p ++ (x, some (withText b old)) :: q) ++ r)) := by
  refine ⟨written (l ++ p), written (q ++ r), old, ?_, ?_⟩ <;>
    simp only [written, List.filterMap_append, List.filterMap_cons, Option.map_some, List.append_assoc, List.cons_append]

/-! ### one object -/

theorem fileIn_rest {S S' : Text → Option Node} {n : Text} (h : ∀ m, m ≠ n → S' m = S m) (m : Text) (hm : m ≠ n) : fileIn S' m = fileIn S m := by
  unfold fileIn
  rw [h m hm]

theorem bsl_eq (k n : Text) : k ++ '.' :: n ++ ".bsl".toList = bslName k n := by
  simp only [bslName, dot, List.append_assoc, List.cons_append]
  rfl

/-- the other files of an object of a class without collisions -/
theorem others {k : Kind} (hk : (sources k).Nodup) {c : Text × Text} (hc : c ∈ k.codes) : idName k.name ≠ bslName k.name c.1 ∧ objName k.name ≠ bslName k.name c.1 ∧
    (∀ sfx, k.help = some sfx → dot k.name "html".toList ≠ bslName k.name c.1 ∧ dot k.name "bin".toList ≠ bslName k.name c.1) ∧
    (∀ b ∈ k.blobs, b.2 ≠ bslName k.name c.1) ∧ (k.codes.flatMap (fun c => [bslName k.name c.1, binName k.name c.1])).Nodup := by
  unfold sources at hk
  rw [List.nodup_append] at hk
  obtain ⟨h1, _, h3⟩ := hk
  rw [List.nodup_append] at h1
  obtain ⟨_, h5, h6⟩ := h1
  have hb : bslName k.name c.1 ∈ k.codes.flatMap (fun c => [bslName k.name c.1, binName k.name c.1]) := List.mem_flatMap.mpr ⟨c, hc, List.mem_cons_self⟩
  refine ⟨fun h => h3 _ (List.mem_append_right _ hb) _ List.mem_cons_self h.symm,
    fun h => h3 _ (List.mem_append_right _ hb) _ (List.mem_cons_of_mem _ List.mem_cons_self) h.symm, fun sfx hs => ⟨fun h => ?_, fun h => ?_⟩,
    fun b hbl h => h6 _ (List.mem_append_right _ (List.mem_map.mpr ⟨b, hbl, rfl⟩)) _ hb h, h5⟩
  · refine h6 _ (List.mem_append_left _ ?_) _ hb h
    rw [hs]
    exact List.mem_flatMap.mpr ⟨sfx, List.mem_cons_self, List.mem_cons_self⟩
  · refine h6 _ (List.mem_append_left _ ?_) _ hb h
    rw [hs]
    exact List.mem_flatMap.mpr ⟨sfx, List.mem_cons_self, List.mem_cons_of_mem _ List.mem_cons_self⟩

theorem helpIn_rest {win : Bool} {k : Text} {S S' : Text → Option Bytes} {j : JT} {u : Text} {o : Option Text}
    (h : ∀ sfx, o = some sfx → S' (dot k "html".toList) = S (dot k "html".toList) ∧ S' (dot k "bin".toList) = S (dot k "bin".toList)) :
    helpIn win k S' j u o = helpIn win k S j u o := by
  cases o with
  | none => rfl
  | some sfx =>
    unfold helpIn
    rw [(h sfx rfl).1, (h sfx rfl).2]

theorem blobsIn_rest {S S' : Text → Option Bytes} {u : Text} {l : List (Text × Text)} (h : ∀ b ∈ l, S' b.2 = S b.2) : blobsIn S' u l = blobsIn S u l :=
  List.map_congr_left (fun b hb => by rw [h b hb])

theorem build_uuid {y : Bld} {c : Cls} {es : List Entry} {s : Object.Src} {r : Text × Text × Val} (h : buildVal y c es s = some r) :
    ∃ j, readFile s.id = some j ∧ textAt j "uuid".toList = some r.1 := by
  unfold buildVal at h
  simp only [Option.bind_eq_some_iff] at h
  obtain ⟨jid, h1, j, _, h⟩ := h
  refine ⟨jid, h1, ?_⟩
  cases hu : textAt jid "uuid".toList with
  | none => rw [hu] at h; cases h
  | some u =>
    rw [hu] at h
    cases hn : textAt j "name".toList with
    | none => rw [hn] at h; cases h
    | some nm =>
      rw [hn] at h
      cases hr : treeAt j "header".toList with
      | none => rw [hr] at h; cases h
      | some root =>
        rw [hr] at h
        simp only [Option.bind_eq_some_iff] at h
        obtain ⟨r0, _, r1, _, h⟩ := h
        cases hg : V8.Product.getAt r1 c.path with
        | none => rw [hg] at h; cases h
        | some v =>
          rw [hg] at h
          cases v with
          | none => cases h
          | str _ => cases h
          | list l =>
            simp only [Option.bind_eq_some_iff, Option.map_eq_some_iff] at h
            obtain ⟨_, _, _, _, _, _, rfl⟩ := h
            rfl

/-- an object with a file of its own -/
theorem full_edit {y : Bld} {k : Kind} {es : List Entry} {S S' : Text → Option Bytes} (hk : (sources k).Nodup) {u : Text} {c : Text × Text} (hc : c ∈ k.codes) {bi bo nb b : Bytes} {jid j : JT}
    {i : Option (List (List Val))} {e : EncName} {t : Text} (hbi : S (idName k.name) = some bi) (hji : readFile bi = some jid) (hu : textAt jid "uuid".toList = some u)
    (hbo : S (objName k.name) = some bo) (hj : readFile bo = some j) (hi : codeInfo j c.1 = some (some i)) (he : encOf j c.1 = some e) (hne : e ≠ .bin)
    (hS : ∀ m, m ≠ bslName k.name c.1 → S' m = S m) (hnb : S' (bslName k.name c.1) = some nb) (hs : Saved nb t) (hb : Holds y.win e t b)
    {g : Option Given} {fs : List (Text × Node)} (h : buildFull y k es S = some (g, fs)) : ∃ fs', buildFull y k es S' = some (g, fs') ∧ OnlyText (dot u c.2) b fs fs' := by
  obtain ⟨o1, o2, o3, o4, o5⟩ := others hk hc
  unfold buildFull at h ⊢
  rw [hS _ o1, hS _ o2, hbi, hbo]
  rw [hbi, hbo] at h
  simp only [hj, Option.bind_some, Option.bind_eq_some_iff, Option.map_eq_some_iff] at h ⊢
  obtain ⟨r, hr, d, hd, hp, hhp, cs, hcs, inf, hinf, he2⟩ := h
  obtain ⟨j', h1, h2⟩ := build_uuid hr
  cases hji.symm.trans h1
  cases hu.symm.trans h2
  obtain ⟨p, q, old, rfl, hcs'⟩ := codesIn_edit (win := y.win) (cd := false) (u := r.1) hi he hne hS hnb hs hb o5 hc hcs
  rw [Prod.mk.injEq] at he2
  obtain ⟨rfl, rfl⟩ := he2
  refine ⟨_, ⟨r, hr, d, hd, hp, ?_, _, hcs', inf, hinf, rfl⟩, ?_⟩
  · rw [helpIn_rest (fun sfx hsfx => ⟨hS _ (o3 sfx hsfx).1, hS _ (o3 sfx hsfx).2⟩), hhp]
  · rw [blobsIn_rest (fun b hb => hS _ (o4 b hb))]
    have := written_edit (x := dot r.1 c.2) (b := b) (p := p) (q := q) (old := old) (l := hp ++ blobsIn S r.1 k.blobs ++ [(r.1, some (.file (braceFile y.win d)))]) (r := inf)
    simpa only [List.append_assoc, List.cons_append, List.nil_append] using this

/-- an object that is kept inside its parent -/
theorem inner_edit {y : Bld} {k : Kind} {S S' : Text → Option Bytes} (hk : (sources k).Nodup) {u : Text} {c : Text × Text} (hc : c ∈ k.codes) {bi bo nb b : Bytes} {jid j : JT}
    {i : Option (List (List Val))} {e : EncName} {t : Text} (hbi : S (idName k.name) = some bi) (hji : readFile bi = some jid) (hu : textAt jid "uuid".toList = some u)
    (hbo : S (objName k.name) = some bo) (hj : readFile bo = some j) (hi : codeInfo j c.1 = some (some i)) (he : encOf j c.1 = some e) (hne : e ≠ .bin)
    (hS : ∀ m, m ≠ bslName k.name c.1 → S' m = S m) (hnb : S' (bslName k.name c.1) = some nb) (hs : Saved nb t) (hb : Holds y.win e t b)
    {g : Option Given} {fs : List (Text × Node)} (h : innerFull y k S = some (g, fs)) : ∃ fs', innerFull y k S' = some (g, fs') ∧ OnlyText (dot u c.2) b fs fs' := by
  obtain ⟨o1, o2, o3, o4, o5⟩ := others hk hc
  unfold innerFull at h ⊢
  rw [hS _ o1, hS _ o2, hbi, hbo]
  rw [hbi, hbo] at h
  simp only [hj, Option.bind_some, Option.bind_eq_some_iff, Option.map_eq_some_iff] at h ⊢
  obtain ⟨r, hr, cs, hcs, he2⟩ := h
  obtain ⟨j', h1, h2⟩ := build_uuid hr
  cases hji.symm.trans h1
  cases hu.symm.trans h2
  obtain ⟨p, q, old, rfl, hcs'⟩ := codesIn_edit (win := y.win) (cd := false) (u := r.1) hi he hne hS hnb hs hb o5 hc hcs
  rw [Prod.mk.injEq] at he2
  obtain ⟨rfl, rfl⟩ := he2
  refine ⟨_, ⟨r, hr, _, hcs', rfl⟩, ?_⟩
  have := written_edit (x := dot r.1 c.2) (b := b) (p := p) (q := q) (old := old) (l := []) (r := [])
  simpa only [List.append_nil, List.nil_append] using this

/-! ### any object -/

/-- what an edit has to be for a class -/
def Local (K : Text → Option Handler) (x : Text) (b : Bytes) (R : Text → (Text → Option Node) → (Text → Option Node) → Prop) : Prop :=
  ∀ ty S S', R ty S S' → ∃ h, K ty = some h ∧ h.has S = true ∧ h.has S' = true ∧ h.conBack S' = h.conBack S ∧
    ∀ con p es g fs, h.back con p es S = some (g, fs) → ∃ fs', h.back con p es S' = some (g, fs') ∧ OnlyText x b fs fs'

theorem subs_edit {K : Text → Option Handler} {ord : Text → List Entry → List Entry} {con : Option Text} {parent sty snm : Text} {d d' : Dir} {x : Text} {b : Bytes}
    (hd : ∀ es fs, buildDir K ord con parent sty snm d = some (es, fs) → ∃ fs', buildDir K ord con parent sty snm d' = some (es, fs') ∧ OnlyText x b fs fs') :
    ∀ (l r : List (Text × Text × Dir)) (es : List Entry) (fs : List (Text × Node)), buildSubs K ord con parent (.ofList (l ++ (sty, snm, d) :: r)) = some (es, fs) →
    ∃ fs', buildSubs K ord con parent (.ofList (l ++ (sty, snm, d') :: r)) = some (es, fs') ∧ OnlyText x b fs fs'
  | [], r, es, fs, h => by
    rw [List.nil_append, Subs.ofList, buildSubs, Option.bind_eq_some_iff] at h
    obtain ⟨a, ha, h⟩ := h
    rw [Option.map_eq_some_iff] at h
    obtain ⟨c, hc, he⟩ := h
    rw [Prod.mk.injEq] at he
    obtain ⟨rfl, rfl⟩ := he
    obtain ⟨fs', h1, h2⟩ := hd _ _ ha
    refine ⟨fs' ++ c.2, ?_, ?_⟩
    · rw [List.nil_append, Subs.ofList, buildSubs, h1, Option.bind_some, hc]
      rfl
    · have := h2.append [] c.2
      simpa only [List.nil_append] using this
  | (ty, nm, q) :: l, r, es, fs, h => by
    rw [List.cons_append, Subs.ofList, buildSubs, Option.bind_eq_some_iff] at h
    obtain ⟨a, ha, h⟩ := h
    rw [Option.map_eq_some_iff] at h
    obtain ⟨c, hc, he⟩ := h
    rw [Prod.mk.injEq] at he
    obtain ⟨rfl, rfl⟩ := he
    obtain ⟨fs', h1, h2⟩ := subs_edit hd l r _ _ hc
    refine ⟨a.2 ++ fs', ?_, ?_⟩
    · rw [List.cons_append, Subs.ofList, buildSubs, ha, Option.bind_some, h1]
      rfl
    · have := h2.append a.2 []
      simpa only [List.append_nil] using this

/-- an edit anywhere in a tree of source folders -/
theorem tree_edit {K : Text → Option Handler} {R : Text → (Text → Option Node) → (Text → Option Node) → Prop} {x : Text} {b : Bytes} (hR : Local K x b R)
    {ord : Text → List Entry → List Entry} {ty : Text} {d d' : Dir} (h : Edited K R ty d d') : ∀ (con : Option Text) (parent nm : Text) (es : List Entry) (fs : List (Text × Node)),
    buildDir K ord con parent ty nm d = some (es, fs) → ∃ fs', buildDir K ord con parent ty nm d' = some (es, fs') ∧ OnlyText x b fs fs' := by
  induction h with
  | @here ty files files' subs h =>
    intro con parent nm es fs hb
    obtain ⟨hd, hk, h1, h2, h3, h4⟩ := hR _ _ _ h
    rw [buildDir, hk] at hb ⊢
    simp only at hb ⊢
    rw [if_neg (by rw [h1]; decide)] at hb
    rw [if_neg (by rw [h2]; decide)]
    by_cases hs : hd.kids = false ∨ subs.isNil = true
    · rw [if_pos hs, Option.map_eq_some_iff] at hb
      obtain ⟨⟨g, f⟩, hb, he⟩ := hb
      rw [Prod.mk.injEq] at he
      obtain ⟨rfl, rfl⟩ := he
      obtain ⟨fs', h5, h6⟩ := h4 _ _ _ _ _ hb
      rw [if_pos hs, h5]
      exact ⟨fs', rfl, h6⟩
    · rw [if_neg hs, Option.bind_eq_some_iff] at hb
      obtain ⟨r, hr, hb⟩ := hb
      by_cases h0 : r.1 = []
      · rw [if_pos h0] at hb; cases hb
      · rw [if_neg h0, Option.map_eq_some_iff] at hb
        obtain ⟨⟨g, f⟩, hb, he⟩ := hb
        rw [Prod.mk.injEq] at he
        obtain ⟨rfl, rfl⟩ := he
        obtain ⟨fs', h5, h6⟩ := h4 _ _ _ _ _ hb
        rw [if_neg hs, h3, hr, Option.bind_some, if_neg h0, h5]
        refine ⟨r.2 ++ fs', rfl, ?_⟩
        have := h6.append r.2 []
        simpa only [List.append_nil] using this
  | @deeper ty hd files l r sty snm d d' hk hh hn _ ih =>
    intro con parent nm es fs hb
    rw [buildDir, hk] at hb ⊢
    simp only at hb ⊢
    rw [if_neg (by rw [hh]; decide)] at hb ⊢
    have hnil : ∀ d, ¬ (hd.kids = false ∨ (Subs.ofList (l ++ (sty, snm, d) :: r)).isNil = true) := by
      intro d h
      rcases h with h | h
      · rw [hn] at h; cases h
      · have := (ofList_isNil _).mp h
        simp at this
    rw [if_neg (hnil d), Option.bind_eq_some_iff] at hb
    rw [if_neg (hnil d')]
    obtain ⟨⟨e1, f1⟩, hr, hb⟩ := hb
    obtain ⟨f2, h1, h2⟩ := subs_edit (fun es fs => ih _ _ _ es fs) l r _ _ hr
    by_cases h0 : e1 = []
    · rw [if_pos h0] at hb; cases hb
    · rw [if_neg h0, Option.map_eq_some_iff] at hb
      obtain ⟨⟨g, f⟩, hb, he⟩ := hb
      rw [Prod.mk.injEq] at he
      obtain ⟨rfl, rfl⟩ := he
      rw [h1, Option.bind_some, if_neg h0, hb]
      refine ⟨f2 ++ f, rfl, ?_⟩
      have := h2.append [] f
      simpa only [List.nil_append] using this

end V8.Edit
