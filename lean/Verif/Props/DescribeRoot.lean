import Verif.Props.Describe
/-
C83: the description of an object is edited in the sources of a product.
-/
namespace V8.Describe
open V8.Brace V8.Enc V8.JsonText V8.Header V8.Store V8.Tree V8.Module V8.Product
open V8.Nested hiding Handler Env
open V8.Object hiding Cls
open V8.Misc (Cls)
open V8.Root (Apart rootIn listsIn listPaths conIn)
open V8.Edit (Edited EditedIn edited_of)
open V8.Folders (SourcesOf ListsReady GrownBy OneMore C82_product)

/-! ### specification -/

/-- In the folder `S` of an object of the type `ty` with the identifier `u` the value of the header at the place `q` is replaced by `w`. -/
def HeaderEdit (C : Text → Option Class) (u : Text) (q : List Nat) (w : Val) (ty : Text) (S S' : Text → Option Node) : Prop :=
  ∃ k, C ty = some (.file k) ∧ k.cls.ids = [] ∧ k.cls.stamp = false ∧ Free k.cls q ∧ (k.name ∈ containers → Apart q [0, 1, 1]) ∧
    (∃ bi ji, S (k.name ++ ".id.json".toList) = some (.file bi) ∧ readFile bi = some ji ∧ textAt ji "uuid".toList = some u) ∧
    ∃ j j' root root', DescriptionEdit k ["header".toList, "name2".toList, "comment".toList] (fileIn S) (fileIn S') j j' ∧ treeAt j "header".toList = some root ∧
      treeAt j' "header".toList = some root' ∧ setAt root q w = some root'

/-- In the folder `S` of an object of the class `k` with the identifier `u` the name is replaced by `n`. -/
def NameEdit (k : Kind) (u n : Text) (S S' : Text → Option Node) : Prop :=
  (∃ bi ji, S (k.name ++ ".id.json".toList) = some (.file bi) ∧ readFile bi = some ji ∧ textAt ji "uuid".toList = some u) ∧
    ∃ j j', DescriptionEdit k ["name".toList, "name2".toList, "comment".toList] (fileIn S) (fileIn S') j j' ∧ entry j' "name".toList = some (.str n)

/-- of the files `fs` one, the brace file `u`, has in `fs'` the value `w` at the place `q` -/
def OnlyValue (win : Bool) (u : Text) (q : List Nat) (w : Val) (fs fs' : List (Text × Node)) : Prop := ∃ d d', OnlyData win u d d' fs fs' ∧ PutAt q w d d'

/-- the same for a name: the file of a borrowed object stays as it is -/
def OnlyName (win : Bool) (u : Text) (p : List Nat) (nm : Text) (fs fs' : List (Text × Node)) : Prop :=
  ∃ d d', OnlyData win u d d' fs fs' ∧ (Native p (rootVal d) ∧ PutAt (p ++ [2]) (.str (strEncode nm)) d d' ∨ ¬ Native p (rootVal d) ∧ d' = d)

/-! ### lists of files -/

theorem OnlyData.append {win : Bool} {x : Text} {d d' : List (List Val)} {fs fs' : List (Text × Node)} (h : OnlyData win x d d' fs fs') (l r : List (Text × Node)) :
    OnlyData win x d d' (l ++ fs ++ r) (l ++ fs' ++ r) := by
  obtain ⟨a, c, rfl, rfl⟩ := h
  exact ⟨l ++ a, c ++ r, by simp only [List.append_assoc, List.cons_append], by simp only [List.append_assoc, List.cons_append]⟩

theorem OnlyData.names {win : Bool} {x : Text} {d d' : List (List Val)} {fs fs' : List (Text × Node)} (h : OnlyData win x d d' fs fs') : fs'.map (·.1) = fs.map (·.1) := by
  obtain ⟨a, c, rfl, rfl⟩ := h
  simp only [List.map_append, List.map_cons]

/-! ### an edit that leaves what the object delivers -/

/-- what an edit has to be for a class: `Q` says how the files change -/
def LocalTo (K : Text → Option Handler) (Q : List (Text × Node) → List (Text × Node) → Prop) (R : Text → (Text → Option Node) → (Text → Option Node) → Prop) : Prop :=
  ∀ ty S S', R ty S S' → ∃ h, K ty = some h ∧ h.has S = true ∧ h.has S' = true ∧ h.conBack S' = h.conBack S ∧
    ∀ con p es g fs, h.back con p es S = some (g, fs) → ∃ fs', h.back con p es S' = some (g, fs') ∧ Q fs fs'

/-- the change is one of some of the files -/
def Inner (Q : List (Text × Node) → List (Text × Node) → Prop) : Prop := ∀ fs fs' l r, Q fs fs' → Q (l ++ fs ++ r) (l ++ fs' ++ r)

theorem subs_change {K : Text → Option Handler} {ord : Text → List Entry → List Entry} {con : Option Text} {parent sty snm : Text} {d d' : Dir}
    {Q : List (Text × Node) → List (Text × Node) → Prop} (hQ : Inner Q)
    (hd : ∀ es fs, buildDir K ord con parent sty snm d = some (es, fs) → ∃ fs', buildDir K ord con parent sty snm d' = some (es, fs') ∧ Q fs fs') :
    ∀ (l r : List (Text × Text × Dir)) (es : List Entry) (fs : List (Text × Node)), buildSubs K ord con parent (.ofList (l ++ (sty, snm, d) :: r)) = some (es, fs) →
    ∃ fs', buildSubs K ord con parent (.ofList (l ++ (sty, snm, d') :: r)) = some (es, fs') ∧ Q fs fs'
  | [], r, es, fs, h => by
    rw [List.nil_append, Subs.ofList, buildSubs, Option.bind_eq_some_iff] at h
    obtain ⟨a, ha, h⟩ := h
    rw [Option.map_eq_some_iff] at h
    obtain ⟨c, hc, he⟩ := h
    rw [Prod.mk.injEq] at he
    obtain ⟨rfl, rfl⟩ := he
    obtain ⟨fs', h1, h2⟩ := hd _ _ ha
    refine ⟨fs' ++ c.2, ?_, ?_⟩
    · rw [List.nil_append, Subs.ofList, buildSubs, h1, Option.bind_some, hc]
      rfl
    · have := hQ _ _ [] c.2 h2
      simpa only [List.nil_append] using this
  | (ty, nm, q) :: l, r, es, fs, h => by
    rw [List.cons_append, Subs.ofList, buildSubs, Option.bind_eq_some_iff] at h
    obtain ⟨a, ha, h⟩ := h
    rw [Option.map_eq_some_iff] at h
    obtain ⟨c, hc, he⟩ := h
    rw [Prod.mk.injEq] at he
    obtain ⟨rfl, rfl⟩ := he
    obtain ⟨fs', h1, h2⟩ := subs_change hQ hd l r _ _ hc
    refine ⟨a.2 ++ fs', ?_, ?_⟩
    · rw [List.cons_append, Subs.ofList, buildSubs, ha, Option.bind_some, h1]
      rfl
    · have := hQ _ _ a.2 [] h2
      simpa only [List.append_nil] using this

theorem tree_change {K : Text → Option Handler} {R : Text → (Text → Option Node) → (Text → Option Node) → Prop} {Q : List (Text × Node) → List (Text × Node) → Prop} (hQ : Inner Q) (hR : LocalTo K Q R)
    {ord : Text → List Entry → List Entry} {ty : Text} {d d' : Dir} (h : Edited K R ty d d') : ∀ (con : Option Text) (parent nm : Text) (es : List Entry) (fs : List (Text × Node)),
    buildDir K ord con parent ty nm d = some (es, fs) → ∃ fs', buildDir K ord con parent ty nm d' = some (es, fs') ∧ Q fs fs' := by
  induction h with
  | @here ty files files' subs h =>
    intro con parent nm es fs hb
    obtain ⟨hd, hk, h1, h2, h3, h4⟩ := hR _ _ _ h
    rw [buildDir, hk] at hb ⊢
    simp only at hb ⊢
    rw [if_neg (by rw [h1]; decide)] at hb
    rw [if_neg (by rw [h2]; decide)]
    by_cases hs : hd.kids = false ∨ subs.isNil = true
    · rw [if_pos hs, Option.map_eq_some_iff] at hb
      obtain ⟨⟨g, f⟩, hb, he⟩ := hb
      rw [Prod.mk.injEq] at he
      obtain ⟨rfl, rfl⟩ := he
      obtain ⟨fs', h5, h6⟩ := h4 _ _ _ _ _ hb
      rw [if_pos hs, h5]
      exact ⟨fs', rfl, h6⟩
    · rw [if_neg hs, Option.bind_eq_some_iff] at hb
      obtain ⟨r, hr, hb⟩ := hb
      by_cases h0 : r.1 = []
      · rw [if_pos h0] at hb; cases hb
      · rw [if_neg h0, Option.map_eq_some_iff] at hb
        obtain ⟨⟨g, f⟩, hb, he⟩ := hb
        rw [Prod.mk.injEq] at he
        obtain ⟨rfl, rfl⟩ := he
        obtain ⟨fs', h5, h6⟩ := h4 _ _ _ _ _ hb
        rw [if_neg hs, h3, hr, Option.bind_some, if_neg h0, h5]
        refine ⟨r.2 ++ fs', rfl, ?_⟩
        have := hQ _ _ r.2 [] h6
        simpa only [List.append_nil] using this
  | @deeper ty hd files l r sty snm d d' hk hh hn _ ih =>
    intro con parent nm es fs hb
    rw [buildDir, hk] at hb ⊢
    simp only at hb ⊢
    rw [if_neg (by rw [hh]; decide)] at hb ⊢
    have hnil : ∀ d, ¬ (hd.kids = false ∨ (Subs.ofList (l ++ (sty, snm, d) :: r)).isNil = true) := by
      intro d h
      rcases h with h | h
      · rw [hn] at h; cases h
      · have := (ofList_isNil _).mp h
        simp at this
    rw [if_neg (hnil d), Option.bind_eq_some_iff] at hb
    rw [if_neg (hnil d')]
    obtain ⟨⟨e1, f1⟩, hr, hb⟩ := hb
    obtain ⟨f2, h1, h2⟩ := subs_change hQ (fun es fs => ih _ _ _ es fs) l r _ _ hr
    by_cases h0 : e1 = []
    · rw [if_pos h0] at hb; cases hb
    · rw [if_neg h0, Option.map_eq_some_iff] at hb
      obtain ⟨⟨g, f⟩, hb, he⟩ := hb
      rw [Prod.mk.injEq] at he
      obtain ⟨rfl, rfl⟩ := he
      rw [h1, Option.bind_some, if_neg h0, hb]
      refine ⟨f2 ++ f, rfl, ?_⟩
      have := hQ _ _ [] f h2
      simpa only [List.nil_append] using this

theorem has_both {k : Kind} {ks : List Text} {S S' : Text → Option Node} {j j' : JT} {bi : Bytes} (hk : (sources k).Nodup) (he : DescriptionEdit k ks (fileIn S) (fileIn S') j j')
    (hbi : S (k.name ++ ".id.json".toList) = some (.file bi)) : fileIn S (idName k.name) = some bi ∧ fileIn S' (idName k.name) = some bi ∧ hasBoth k S = true ∧ hasBoth k S' = true := by
  have e1 : k.name ++ ".id.json".toList = idName k.name := rfl
  rw [e1] at hbi
  have h1 : fileIn S (idName k.name) = some bi := by unfold fileIn; rw [hbi]
  have h2 : fileIn S' (idName k.name) = some bi := by rw [he.rest _ (objName_other hk).1, h1]
  obtain ⟨b, hb, _⟩ := he.before
  obtain ⟨b', hb', _⟩ := he.after
  refine ⟨h1, h2, ?_, ?_⟩
  · unfold hasBoth; rw [h1, hb]; rfl
  · unfold hasBoth; rw [h2, hb']; rfl

/-- the edit of a value is local -/
theorem header_local {C : Text → Option Class} (hC : ClassesOk C) (g : V8.FormObj.Lim) (x : Ext) (y : Bld) (ver : Text) {u : Text} {q : List Nat} {w : Val} :
    LocalTo (handlers C g x y ver) (OnlyValue y.win u q w) (HeaderEdit C u q w) := by
  rintro ty S S' ⟨k, hcl, hids, hst, hq, hcon, ⟨bi, ji, hbi, hji, hu⟩, j, j', root, root', he, hr, hr', hset⟩
  have hgood := (hC.file _ _ .none _ hcl rfl).sources
  obtain ⟨f1, f2, b1, b2⟩ := has_both hgood he hbi
  refine ⟨handlerOf g x y ver (.file k), by unfold handlers; rw [hcl]; rfl, b1, b2, ?_, fun con p es gv fs hback => ?_⟩
  · show V8.Tree.conIn k ver S' = V8.Tree.conIn k ver S
    unfold V8.Tree.conIn
    by_cases hc : k.name ∈ containers
    · rw [if_pos hc, if_pos hc, f1, f2]
      obtain ⟨b, hb, hj⟩ := he.before
      obtain ⟨b', hb', hj'⟩ := he.after
      have hap := hcon hc
      have hcon' : conAt root' = conAt root := by
        unfold conAt
        rw [getAt_frame _ _ _ _ _ hset hap.1 hap.2]
      have hshow : ∀ z, showIds k.cls (some ver) ji z = some z := by
        intro z
        unfold showIds
        rw [if_pos (.inl hids)]
      simp only [hb, hb', Option.bind_some, hj, hj', hr, hr', hji, hshow, hcon']
    · rw [if_neg hc, if_neg hc]
  · cases gv with
    | none =>
      rcases full_desc hgood he (by decide) hback with ⟨_, _, _⟩ | ⟨bi', _, _, _, _, _, _, _, _, _, _, _, hg, _⟩
      · rename_i h1 h2
        exfalso
        have : buildFull { y with parent := p, ver := some ver } k es (fileIn S) = some (none, fs) := hback
        unfold buildFull at this
        obtain ⟨b, hb, hj⟩ := he.before
        rw [f1, hb] at this
        simp only [Option.bind_eq_some_iff, Option.map_eq_some_iff, Prod.mk.injEq] at this
        obtain ⟨_, _, _, _, _, _, _, _, _, _, _, _, h0, _⟩ := this
        cases h0
      · cases hg
    | some gv =>
      have huu : gv.uu = u := by
        rcases full_desc hgood he (by decide) hback with ⟨h0, _, _⟩ | ⟨bi', _, _, u', _, _, _, hid, _, _, hv, _, hg, _⟩
        · cases h0
        · cases hg
          obtain ⟨jz, hz1, hz2⟩ := V8.Edit.build_uuid hv
          rw [f1] at hid
          cases hid
          cases hji.symm.trans hz1
          cases hu.symm.trans hz2
          rfl
      obtain ⟨d, d', fs', h1, h2, h3⟩ := C83_header hgood hids hst he hr hr' hq hset hback
      rw [huu] at h2
      exact ⟨fs', h1, d, d', h2, h3⟩

theorem onlyValue_inner (win : Bool) (u : Text) (q : List Nat) (w : Val) : Inner (OnlyValue win u q w) := by
  rintro fs fs' l r ⟨d, d', h1, h2⟩
  exact ⟨d, d', h1.append l r, h2⟩

theorem OnlyValue.names {win : Bool} {u : Text} {q : List Nat} {w : Val} {fs fs' : List (Text × Node)} (h : OnlyValue win u q w fs fs') : fs'.map (·.1) = fs.map (·.1) := by
  obtain ⟨d, d', h1, _⟩ := h
  exact h1.names

/-- **C83, a value of the header in a product.**  In source folders that can be built, in the description of an object at any depth, the value at a place of its raw data is replaced that the build does not
fill itself.  Then the sources can be built, and the product is the same file for file, apart from the file of this object: it has the new value at this place and the same data elsewhere. -/
theorem C83_product_header (C : Text → Option Class) (hC : ClassesOk C) (g : V8.FormObj.Lim) (e : V8.Root.Env) (ord : Text → List Entry → List Entry) (shuf : List Text → List Text)
    (file : Text) (src : List (Place Node)) (l r : List (Text × Text × V8.Tree.Dir)) (sty snm : Text) (d d' : V8.Tree.Dir) (u : Text) (q : List Nat) (w : Val)
    (hd : EditedIn C (HeaderEdit C u q w) sty d d') (cl : Cls) (fs : List (Text × Node))
    (h : V8.Root.buildProduct e (fun v p => handlers C g e.x { e.y with prod := p } v) ord shuf file (.mk src (.ofList (l ++ (sty, snm, d) :: r))) = some (cl, fs)) :
    ∃ fs', V8.Root.buildProduct e (fun v p => handlers C g e.x { e.y with prod := p } v) ord shuf file (.mk src (.ofList (l ++ (sty, snm, d') :: r))) = some (cl, fs') ∧
      OnlyValue e.y.win u q w fs fs' := by
  unfold V8.Root.buildProduct V8.Root.buildFrom at h ⊢
  simp only [Option.bind_eq_some_iff, Option.map_eq_some_iff] at h ⊢
  obtain ⟨ty, h1, bo, h2, j, h3, cv, h4, o, h5, ⟨es, f1⟩, h6, f2, h7, h8⟩ := h
  rw [Prod.mk.injEq] at h8
  obtain ⟨rfl, rfl⟩ := h8
  have hloc := header_local hC g e.x { e.y with prod := o.productVersion } cv.2 (u := u) (q := q) (w := w)
  obtain ⟨f1', h9, h10⟩ := subs_change (onlyValue_inner _ _ _ _) (fun es fs => tree_change (onlyValue_inner _ _ _ _) hloc (edited_of hC g e.x { e.y with prod := o.productVersion } cv.2 hd) _ _ _ es fs) l r _ _ h6
  refine ⟨f1' ++ f2, ⟨ty, h1, bo, h2, j, h3, cv, h4, o, h5, (es, f1'), h9, f2, ?_, rfl⟩, ?_⟩
  · rw [h10.names]
    exact h7
  · have := onlyValue_inner _ _ _ _ _ _ [] f2 h10
    simp only [List.nil_append] at this
    exact this

/-! ### the name of an object of the product -/

/-- the folder of an object with another name -/
theorem dir_name {C : Text → Option Class} (hC : ClassesOk C) (g : V8.FormObj.Lim) (x : Ext) (y : Bld) (ver : Text) {sty u n : Text} {k : Kind} (hcl : C sty = some (.file k)) {files files' : List (Place Node)}
    {subs : Subs} (he : NameEdit k u n (folder files) (folder files')) {ord : Text → List Entry → List Entry} {con : Option Text} {parent snm : Text} (htop : '/' ∉ parent) {es : List Entry} {fs : List (Text × Node)}
    (h : buildDir (handlers C g x y ver) ord con parent sty snm (.mk files subs) = some (es, fs)) :
    ∃ fs', buildDir (handlers C g x y ver) ord con parent sty snm (.mk files' subs) = some (es.map (fun z => { z with nm := n }), fs') ∧ OnlyName y.win u k.cls.path (y.p ++ n) fs fs' := by
  obtain ⟨⟨bi, ji, hbi, hji, hu⟩, j, j', he, hn⟩ := he
  have hgood := (hC.file _ _ .none _ hcl rfl).sources
  obtain ⟨f1, f2, b1, b2⟩ := has_both hgood he hbi
  have hconb : V8.Tree.conIn k ver (folder files') = V8.Tree.conIn k ver (folder files) := by
    unfold V8.Tree.conIn
    obtain ⟨b, hb, hj⟩ := he.before
    obtain ⟨b', hb', hj'⟩ := he.after
    have : treeAt j' "header".toList = treeAt j "header".toList := by rw [treeAt_entry, treeAt_entry, he.same _ (by decide)]
    simp only [f1, f2, hb, hb', Option.bind_some, hj, hj', this]
  have hback : ∀ es gv fs, buildFull { y with parent := parent, ver := some ver } k es (fileIn (folder files)) = some (gv, fs) →
      ∃ fs', buildFull { y with parent := parent, ver := some ver } k es (fileIn (folder files')) = some (gv.map (fun z => { z with nm := n }), fs') ∧ OnlyName y.win u k.cls.path (y.p ++ n) fs fs' := by
    intro es gv fs hb
    cases gv with
    | none =>
      exfalso
      unfold buildFull at hb
      obtain ⟨b, hbo, hj⟩ := he.before
      rw [f1, hbo] at hb
      simp only [Option.bind_eq_some_iff, Option.map_eq_some_iff, Prod.mk.injEq] at hb
      obtain ⟨_, _, _, _, _, _, _, _, _, _, _, _, h0, _⟩ := hb
      cases h0
    | some gv =>
      have huu : gv.uu = u := by
        rcases full_desc hgood he (by decide) hb with ⟨h0, _, _⟩ | ⟨bi', _, _, u', _, _, _, hid, _, _, hv, _, hg, _⟩
        · cases h0
        · cases hg
          obtain ⟨jz, hz1, hz2⟩ := V8.Edit.build_uuid hv
          rw [f1] at hid
          cases hid
          cases hji.symm.trans hz1
          cases hu.symm.trans hz2
          rfl
      obtain ⟨d, d', fs', h1, h2, h3⟩ := C83_name hgood he hn hb
      rw [huu] at h2
      refine ⟨fs', h1, d, d', h2, ?_⟩
      rcases h3 with ⟨h4, h5⟩ | ⟨h4, h5⟩
      · exact .inl ⟨h4.2, h5⟩
      · exact .inr ⟨fun hh => h4 ⟨htop, hh⟩, h5⟩
  have hent : ∀ gv : Option Given, entries sty (gv.map (fun z => { z with nm := n })) = (entries sty gv).map (fun z => { z with nm := n }) := by
    intro gv
    cases gv with
    | none => rfl
    | some gv =>
      unfold entries
      simp only [Option.map_some]
      by_cases ht : truthy gv.data = true
      · rw [if_pos ht, if_pos ht]; rfl
      · rw [if_neg ht, if_neg ht]; rfl
  have hK : handlers C g x y ver sty = some (handlerOf g x y ver (.file k)) := by unfold handlers; rw [hcl]; rfl
  rw [buildDir, hK] at h ⊢
  simp only at h ⊢
  have b1' : (handlerOf g x y ver (.file k)).has (folder files) = true := b1
  have b2' : (handlerOf g x y ver (.file k)).has (folder files') = true := b2
  have hconb' : (handlerOf g x y ver (.file k)).conBack (folder files') = (handlerOf g x y ver (.file k)).conBack (folder files) := hconb
  rw [if_neg (by rw [b1']; decide)] at h
  rw [if_neg (by rw [b2']; decide)]
  by_cases hs : (handlerOf g x y ver (.file k)).kids = false ∨ subs.isNil = true
  · rw [if_pos hs, Option.map_eq_some_iff] at h
    obtain ⟨⟨gv, f⟩, hb, he'⟩ := h
    rw [Prod.mk.injEq] at he'
    obtain ⟨rfl, rfl⟩ := he'
    obtain ⟨fs', h5, h6⟩ := hback _ _ _ hb
    have h5' : (handlerOf g x y ver (.file k)).back con parent [] (folder files') = some (gv.map (fun z => { z with nm := n }), fs') := h5
    rw [if_pos hs, h5']
    exact ⟨fs', by rw [Option.map_some, hent], h6⟩
  · rw [if_neg hs, Option.bind_eq_some_iff] at h
    obtain ⟨r, hr, hb⟩ := h
    by_cases h0 : r.1 = []
    · rw [if_pos h0] at hb; cases hb
    · rw [if_neg h0, Option.map_eq_some_iff] at hb
      obtain ⟨⟨gv, f⟩, hb, he'⟩ := hb
      rw [Prod.mk.injEq] at he'
      obtain ⟨rfl, rfl⟩ := he'
      obtain ⟨fs', h5, ⟨d, d', h6, h7⟩⟩ := hback _ _ _ hb
      have h5' : (handlerOf g x y ver (.file k)).back con parent (ord (idOf parent sty snm) r.1) (folder files') = some (gv.map (fun z => { z with nm := n }), fs') := h5
      rw [if_neg hs, hconb', hr, Option.bind_some, if_neg h0, h5']
      refine ⟨r.2 ++ fs', by rw [Option.map_some, hent], d, d', ?_, h7⟩
      have := h6.append r.2 []
      simpa only [List.append_nil] using this

theorem top_name (c : Cls) : '/' ∉ (V8.Root.kindOf c).name := by cases c <;> decide

/-- the nested objects with another entry from one folder -/
theorem subs_split {K : Text → Option Handler} {ord : Text → List Entry → List Entry} {con : Option Text} {parent sty snm : Text} {d : Dir} : ∀ (l r : List (Text × Text × Dir)) (es : List Entry)
    (fs : List (Text × Node)), buildSubs K ord con parent (.ofList (l ++ (sty, snm, d) :: r)) = some (es, fs) → ∃ e1 e2 e3 f1 f2 f3, es = e1 ++ e2 ++ e3 ∧ fs = f1 ++ f2 ++ f3 ∧
      buildDir K ord con parent sty snm d = some (e2, f2) ∧ ∀ d' e2' f2', buildDir K ord con parent sty snm d' = some (e2', f2') →
        buildSubs K ord con parent (.ofList (l ++ (sty, snm, d') :: r)) = some (e1 ++ e2' ++ e3, f1 ++ f2' ++ f3)
  | [], r, es, fs, h => by
    rw [List.nil_append, Subs.ofList, buildSubs, Option.bind_eq_some_iff] at h
    obtain ⟨a, ha, h⟩ := h
    rw [Option.map_eq_some_iff] at h
    obtain ⟨c, hc, he⟩ := h
    rw [Prod.mk.injEq] at he
    obtain ⟨rfl, rfl⟩ := he
    refine ⟨[], a.1, c.1, [], a.2, c.2, rfl, rfl, ha, fun d' e2' f2' hd => ?_⟩
    rw [List.nil_append, Subs.ofList, buildSubs, hd, Option.bind_some, hc]
    rfl
  | (ty, nm, q) :: l, r, es, fs, h => by
    rw [List.cons_append, Subs.ofList, buildSubs, Option.bind_eq_some_iff] at h
    obtain ⟨a, ha, h⟩ := h
    rw [Option.map_eq_some_iff] at h
    obtain ⟨c, hc, he⟩ := h
    rw [Prod.mk.injEq] at he
    obtain ⟨rfl, rfl⟩ := he
    obtain ⟨e1, e2, e3, f1, f2, f3, h1, h2, h3, h4⟩ := subs_split l r _ _ hc
    refine ⟨a.1 ++ e1, e2, e3, a.2 ++ f1, f2, f3, by rw [h1]; simp only [List.append_assoc], by rw [h2]; simp only [List.append_assoc], h3, fun d' e2' f2' hd => ?_⟩
    rw [List.cons_append, Subs.ofList, buildSubs, ha, Option.bind_some, h4 _ _ _ hd]
    simp only [Option.map_some, List.append_assoc]

/-- **C83, the name of an object in a product.**  In source folders that can be built, without auto_include, the name in the description of an object of the product (not one nested in another) is replaced by
`n`.  Then the sources can be built, and the product is the same file for file, apart from the file of this object: if it is not borrowed, this file has the new name, with the prefix of the build, and
the same data elsewhere. -/
theorem C83_product_name (C : Text → Option Class) (hC : ClassesOk C) (g : V8.FormObj.Lim) (e : V8.Root.Env) (ord : Text → List Entry → List Entry) (shuf : List Text → List Text)
    (file : Text) (src : List (Place Node)) (l r : List (Text × Text × V8.Tree.Dir)) (sty snm : Text) (files files' : List (Place Node)) (subs : Subs) (k : Kind) (u n : Text)
    (hcl : C sty = some (.file k)) (he : NameEdit k u n (folder files) (folder files')) (hauto : e.y.auto = false) (cl : Cls) (fs : List (Text × Node))
    (h : V8.Root.buildProduct e (fun v p => handlers C g e.x { e.y with prod := p } v) ord shuf file (.mk src (.ofList (l ++ (sty, snm, .mk files subs) :: r))) = some (cl, fs)) :
    ∃ fs', V8.Root.buildProduct e (fun v p => handlers C g e.x { e.y with prod := p } v) ord shuf file (.mk src (.ofList (l ++ (sty, snm, .mk files' subs) :: r))) = some (cl, fs') ∧
      OnlyName e.y.win u k.cls.path (e.y.p ++ n) fs fs' := by
  unfold V8.Root.buildProduct V8.Root.buildFrom at h ⊢
  simp only [Option.bind_eq_some_iff, Option.map_eq_some_iff] at h ⊢
  obtain ⟨ty, h1, bo, h2, j, h3, cv, h4, o, h5, ⟨es, f1⟩, h6, f2, h7, h8⟩ := h
  rw [Prod.mk.injEq] at h8
  obtain ⟨rfl, rfl⟩ := h8
  obtain ⟨e1, e2, e3, a1, a2, a3, rfl, rfl, hdir, hdir'⟩ := subs_split l r _ _ h6
  obtain ⟨a2', hb, d, d', hod, hx⟩ := dir_name hC g e.x { e.y with prod := o.productVersion } cv.2 hcl he (top_name cv.1) hdir
  have h9 := hdir' _ _ _ hb
  have hod' := hod.append a1 a3
  refine ⟨a1 ++ a2' ++ a3 ++ f2, ⟨ty, h1, bo, h2, j, h3, cv, h4, o, h5, _, h9, f2, ?_, rfl⟩, d, d', ?_, hx⟩
  · rw [← h7, hod'.names]
    unfold rootIn listsIn
    simp only [hauto, or_true, if_true]
  · have := hod'.append [] f2
    simp only [List.nil_append] at this
    exact this

/-- **C83, the name with auto_include.**  With auto_include the list of the type is written anew: both products are the one without the folder of the object grown by this folder (C82): in the list of the
type the identifier of the object stands once, in the old product as in the new one. -/
theorem C83_product_name_auto (C : Text → Option Class) (hC : ClassesOk C) (g : V8.FormObj.Lim) (e : V8.Root.Env) (ord : Text → List Entry → List Entry) (shuf : List Text → List Text)
    (file : Text) (src : List (Place Node)) (l r : List (Text × Text × V8.Tree.Dir)) (sty snm : Text) (files files' : List (Place Node)) (subs : Subs) (k : Kind) (u n : Text)
    (hcl : C sty = some (.file k)) (he : NameEdit k u n (folder files) (folder files')) (j : JT) (c : Cls) (ver : Text) (o : Options) (ur fu : Text) (h1 : Val) (y : Entry)
    (fX : List (Text × Node)) (ps : List (List Nat)) (U : Text) (hs : SourcesOf e file src j c ver o ur fu h1) (hauto : e.y.auto = true) (hord : ∀ id l, (ord id l).Perm l) (hshuf : ∀ l, (shuf l).Perm l)
    (hx : buildDir (handlers C g e.x { e.y with prod := o.productVersion } ver) ord (V8.Root.conIn c j) (V8.Root.kindOf c).name sty snm (.mk files subs) = some ([y], fX))
    (hes : ∀ es kf, buildSubs (handlers C g e.x { e.y with prod := o.productVersion } ver) ord (V8.Root.conIn c j) (V8.Root.kindOf c).name (.ofList (l ++ r)) = some (es, kf) →
      es ≠ [] ∧ ((y :: es).map (fun e => (e.ty, e.nm))).Nodup ∧ (({ y with nm := n } :: es).map (fun e => (e.ty, e.nm))).Nodup ∧ ∀ z ∈ y :: es, e.y.E.handler z.ty ≠ .missing)
    (hps : listPaths e.groups c h1 = some ps) (hl : ListsReady e.y.E y.ty h1 ps) (hU : e.y.E.uuidOf y.ty = some U) (cl : Cls) (fs : List (Text × Node))
    (h : V8.Root.buildProduct e (fun v p => handlers C g e.x { e.y with prod := p } v) ord shuf file (.mk src (.ofList (l ++ (sty, snm, .mk files subs) :: r))) = some (cl, fs)) :
    ∃ fs' fX' base d0 d d', V8.Root.buildProduct e (fun v p => handlers C g e.x { e.y with prod := p } v) ord shuf file (.mk src (.ofList (l ++ (sty, snm, .mk files' subs) :: r))) = some (cl, fs') ∧
      OnlyName e.y.win u k.cls.path (e.y.p ++ n) fX fX' ∧ V8.Root.buildProduct e (fun v p => handlers C g e.x { e.y with prod := p } v) ord shuf file (.mk src (.ofList (l ++ r))) = some (cl, base) ∧
      GrownBy c e.y.win e.rnd fX fu d0 d base fs ∧ GrownBy c e.y.win e.rnd fX' fu d0 d' base fs' ∧ OneMore U y.data (rootVal d0) (rootVal d) ∧ OneMore U y.data (rootVal d0) (rootVal d') ∧
      ∀ es kf, buildSubs (handlers C g e.x { e.y with prod := o.productVersion } ver) ord (V8.Root.conIn c j) (V8.Root.kindOf c).name (.ofList (l ++ (sty, snm, .mk files subs) :: r)) = some (es, kf) →
        listsIn e c (ord (V8.Root.kindOf c).name es) h1 = some (rootVal d) := by
  obtain ⟨fX', hx', hon⟩ := dir_name hC g e.x { e.y with prod := o.productVersion } ver hcl he (top_name c) hx
  rcases V8.Folders.product_grown e (fun v p => handlers C g e.x { e.y with prod := p } v) ord shuf file src l r sty snm (.mk files subs) j c ver o ur fu h1 y fX ps U hs hauto hord hshuf hx
    (fun es kf hh => ⟨(hes es kf hh).1, (hes es kf hh).2.1, (hes es kf hh).2.2.2⟩) hps hl hU with ⟨base, old, d0, d, k1, k2, k3, k4, k5, k6⟩ | ⟨_, k2⟩
  · cases h.symm.trans k2
    rcases V8.Folders.product_grown e (fun v p => handlers C g e.x { e.y with prod := p } v) ord shuf file src l r sty snm (.mk files' subs) j c ver o ur fu h1 { y with nm := n } fX' ps U hs hauto hord hshuf hx'
      (fun es kf hh => ⟨(hes es kf hh).1, (hes es kf hh).2.2.1, fun z hz => by
        rcases List.mem_cons.mp hz with rfl | hz
        · exact (hes es kf hh).2.2.2 y List.mem_cons_self
        · exact (hes es kf hh).2.2.2 z (List.mem_cons_of_mem _ hz)⟩) hps hl hU with ⟨base', new, d0', d', m1, m2, m3, m4, m5, _⟩ | ⟨m1, _⟩
    · cases k1.symm.trans m1
      have hb := k1
      rw [V8.Folders.build_read hs] at hb
      simp only [Option.bind_eq_some_iff] at hb
      obtain ⟨⟨es, kf⟩, hsub, _⟩ := hb
      have hd : rootVal d0' = rootVal d0 := Option.some.inj ((m5 _ _ hsub).symm.trans (k5 _ _ hsub))
      have hd' : d0' = d0 := by
        have h1 := congrArg rootOf hd
        rw [rootOf_rootVal, rootOf_rootVal] at h1
        exact Option.some.inj h1
      subst hd'
      exact ⟨new, fX', base, d0', d, d', m2, hon, k1, k3, m3, k4, m4, k6⟩
    · cases k1.symm.trans m1
  · cases h.symm.trans k2
end V8.Describe
