import Verif.Props.Root
/-
C62: the folder that is built, and what does not come back.
-/
namespace V8.Root
open V8.Brace V8.Enc V8.JsonText V8.Header V8.Store V8.Tree V8.Embed
open V8.Nested hiding Env Handler
open V8.Object hiding Cls
open V8.Product (getAt setAt getAt_setAt setAt_getAt setAt_some getAt_frame setAt_setAt Options)
open V8.Misc (Cls)

theorem folder_of_mem {files : List (Text × Node)} {P : Text → Prop} {F : Text → Option Node} {m : Text}
    (h : ∀ nd, (m, nd) ∈ files ↔ P m ∧ F m = some nd) :
    (P m → folder (files.map (fun p => (p.1, some p.2))) m = F m) ∧ (¬ P m → folder (files.map (fun p => (p.1, some p.2))) m = none) := by
  have hw : written (files.map (fun p => (p.1, some p.2))) = files := by
    unfold written
    rw [List.filterMap_map]
    exact List.filterMap_some
  unfold folder
  rw [hw]
  cases hf : files.reverse.find? (fun p => decide (p.1 = m)) with
  | none =>
    refine ⟨?_, fun _ => rfl⟩
    intro hm
    cases hF : F m with
    | none => rfl
    | some nd =>
      have hmem := List.mem_reverse.mpr ((h nd).mpr ⟨hm, hF⟩)
      have := List.find?_eq_none.mp hf _ hmem
      simp at this
  | some p =>
    have hp1 := List.find?_some hf
    rw [decide_eq_true_eq] at hp1
    have hmem : (m, p.2) ∈ files := by
      have := List.mem_reverse.mp (List.mem_of_find?_eq_some hf)
      rw [← hp1]
      exact this
    have := (h p.2).mp hmem
    exact ⟨fun _ => this.2.symm, fun hn => absurd this.1 hn⟩

/-- **C62, the container folder.**  Under the same conditions, whatever the order in which the files are written: every file of the product and of its
nested objects is in the folder that is built, as it was, and one that was not there is not there; files that belong to none of them are not
there.  (`versions` and, for an extension, `configinfo`, are new.) -/
theorem C62_container (types : List (Text × Text)) (C : Text → Option Class) (g : V8.FormObj.Lim) (e : Env) (c : Cls) (ver : Text) (F : Text → Option Node)
    (ord : Text → List Entry → List Entry) (shuf : List Text → List Text) (nm : Val → Text) (n : Nat) (info : Info) (dir : Dir) (file fu u : Text)
    (dr dh : List (List Val)) (hC : ClassesOk C) (hE : e.x.E = envOf types C) (hy : e.y.E = e.x.E) (hp : e.y.p = e.x.p) (ha : e.y.auto = e.x.auto)
    (hv0 : e.x.valid [] = false) (hT : ∀ u, e.types u ≠ some "ConfigurationExtension".toList) (hsame : V8.Misc.checkVersion e.tool e.tool = .ok ())
    (hord : ∀ id l, (ord id l).Perm l) (hshuf : ∀ l, (shuf l).Perm l) (hd : detect e F = some (c, ver))
    (hx : extractProduct e (handlers C g e.x e.y ver) c ver F n = some (info, dir)) (hok : ProductOk e c ver F file fu u dr dh)
    (hin : InnerOk types C g e c ver F nm dh) :
    ∃ files, buildProduct e (fun v p => handlers C g e.x { e.y with prod := p } v) ord shuf file dir = some (c, files) ∧
      ∀ files' : List (Text × Node), files'.Perm files → ∀ m, (c ≠ .extension → m ≠ "versions".toList) → (c = .extension → m ≠ "configinfo".toList) →
        (m ∈ ownNames c u fu ∨ NestedNames C e c F dh m → folder (files'.map (fun p => (p.1, some p.2))) m = F m) ∧
        (¬ (m ∈ ownNames c u fu ∨ NestedNames C e c F dh m) → folder (files'.map (fun p => (p.1, some p.2))) m = none) := by
  obtain ⟨files, names, h1, _, h3⟩ := C62_product types C g e c ver F ord shuf nm n info dir file fu u dr dh hC hE hy hp ha hv0 hT hsame hord hshuf hd hx hok hin
  refine ⟨files, h1, ?_⟩
  intro files' hperm m hm1 hm2
  refine folder_of_mem (P := fun m => m ∈ ownNames c u fu ∨ NestedNames C e c F dh m) ?_
  intro nd
  rw [hperm.mem_iff, h3]
  constructor
  · rintro (⟨a, b⟩ | ⟨a, b⟩ | ⟨a', a, _⟩ | ⟨a', a, _⟩)
    · exact ⟨.inr a, b⟩
    · exact ⟨.inl a, b⟩
    · exact absurd a (hm1 a')
    · exact absurd a (hm2 a')
  · rintro ⟨a | a, b⟩
    · exact .inr (.inl ⟨a, b⟩)
    · exact .inl ⟨a, b⟩

/-! ## one folder for each type -/

/-- the folders made for the list at `p` -/
def foldersAt (E : Nested.Env) (v : Val) (p : List Nat) : List Text := match getAt v p with
  | some (.list inc) => foldersOf E inc
  | _ => []

theorem foldersAt_list {E : Nested.Env} {v : Val} {p : List Nat} {inc : List Val} (h : getAt v p = some (.list inc)) : foldersAt E v p = foldersOf E inc := by
  unfold foldersAt
  rw [h]

theorem takeLists_folders {E : Nested.Env} {auto : Bool} : ∀ (ps : List (List Nat)) (made : List Text) (v v' : Val) (os : List Obj),
    takeLists E auto made ps v = some (v', os) → ps.Pairwise Apart →
    (ps.flatMap (foldersAt E v)).Nodup ∧ ∀ f ∈ ps.flatMap (foldersAt E v), f ∉ made
  | [], made, v, v', os, _, _ => ⟨.nil, fun f h => by cases h⟩
  | p :: ps, made, v, v', os, h, hp => by
    obtain ⟨inc, inc', os1, v1, os2, hg, hd, hs, ht, rfl⟩ := takeLists_cons h
    rw [List.pairwise_cons] at hp
    obtain ⟨ih1, ih2⟩ := takeLists_folders ps _ v1 v' os2 ht hp.2
    have hsame : ps.flatMap (foldersAt E v1) = ps.flatMap (foldersAt E v) := by
      have : ∀ q ∈ ps, foldersAt E v1 q = foldersAt E v q := by
        intro q hq
        have ha := hp.1 q hq
        unfold foldersAt
        rw [getAt_frame _ _ _ _ _ hs ha.1 ha.2]
      clear ih1 ih2 ht hp h
      induction ps with
      | nil => rfl
      | cons q ps ih =>
        rw [List.flatMap_cons, List.flatMap_cons, this q List.mem_cons_self, ih (fun r hr => this r (List.mem_cons_of_mem _ hr))]
    rw [hsame] at ih1 ih2
    obtain ⟨a, b, n, c, slots, slots', rfl, hn, hd', rfl⟩ := decodeFrom_some hd
    have hfo : foldersOf E (a :: b :: .str n :: slots) = (slots.take c.toNat).filterMap (folderOf E) := by rw [foldersOf, hn]
    obtain ⟨f1, f2⟩ := folders_nodup _ _ _ _ _ hd'
    rw [← hfo] at f1 f2
    rw [List.flatMap_cons, foldersAt_list hg, List.nodup_append]
    refine ⟨⟨f1, ih1, ?_⟩, ?_⟩
    · intro x hx y hy hxy
      subst hxy
      exact ih2 x hy (List.mem_append_left _ hx)
    · intro f hf
      rcases List.mem_append.mp hf with hf | hf
      · exact f2 f hf
      · intro hm
        exact ih2 f hf (List.mem_append_right _ hm)

/-- C62, limit: all lists of a product share one destination folder.  A product in which two lists - in the same group or in two groups - make a folder
of the same type cannot be extracted (FileExistsError). -/
theorem C62_one_list_per_type (e : Env) (c : Cls) (ver : Text) (F : Text → Option Node) (info : Info) (os : List Obj) (src : List (Place Bytes))
    (fu : Text) (root h : Val) (ps : List (List Nat)) (hx : rootOut e c ver F = some (info, os, src)) (hr : need F (rootName c) = some root)
    (hf : getAt root (filePath c) = some (.str fu)) (hh : need F fu = some h) (hp : ∀ tok, getAt h ((kindOf c).head ++ [2]) = some (.str tok) →
      ¬ (e.x.p ≠ [] ∧ e.x.p <+: V8.Module.strDecode tok)) (hps : listPaths e.groups c h = some ps) : (ps.flatMap (foldersAt e.x.E h)).Nodup := by
  obtain ⟨root', fu', v, hd, h', h1, b, ps', t, g1, g2, g3, g4, g5, g6, g7, g8, g9, rfl⟩ := rootOut_some hx
  rw [hr] at g1
  cases g1
  rw [hf] at g2
  cases g2
  rw [hh] at g3
  cases g3
  have hsame := header_same g5 (fun tok ht => hp tok (by rw [getAt_append, g4, Option.bind_some, getAt, ht]; rfl))
  subst hsame
  rw [setAt_getAt _ _ _ g4] at g6
  cases g6
  rw [hps] at g8
  cases g8
  exact (takeLists_folders _ _ _ _ _ g9 (listPaths_apart hps)).1

/-! ## the root of an external data processor -/

theorem braceFile_inj {win : Bool} {a b : List (List Val)} (ha : a ≠ []) (hwa : WFFile a) (hb : b ≠ []) (hwb : WFFile b) (h : braceFile win a = braceFile win b) : a = b := by
  have h1 := C59_brace_file_round_trip win a ha hwa
  rw [h, C59_brace_file_round_trip win b hb hwb] at h1
  exact (Option.some.inj h1).symm

/-- C62, limit: the file `root` of an external data processor or report is not kept in the sources: every build writes the same row, with an empty third
value (the tree `edpRoot`) -/
theorem C62_processor_root_rewritten (e : Env) (ver file : Text) (made : List Text) (es : List Entry) (S : Text → Option Bytes) (j : JT)
    (fs : List (Text × Node)) (h : rootIn e .processor ver file made es S j = some fs) :
    ∃ fu, textAt j "file_uuid".toList = some fu ∧ ("root".toList, Node.file (braceFile e.y.win [[.str ['2'], .str fu, .str []]])) ∈ fs := by
  unfold rootIn at h
  simp only [Option.bind_eq_some_iff] at h
  obtain ⟨u, _, fu, hfu, h0, _, v8, _, h⟩ := h
  by_cases hv : V8.Misc.checkVersion e.tool v8 ≠ .ok ()
  · rw [if_pos hv] at h; cases h
  · rw [if_neg hv] at h
    simp only [Option.bind_eq_some_iff, Option.map_eq_some_iff] at h
    obtain ⟨o, _, h1, _, h2, _, d, _, front, hf, parts, _, infos, _, rfl⟩ := h
    simp only [frontIn, Option.bind_eq_some_iff, Option.map_eq_some_iff] at hf
    obtain ⟨v, _, ci, _, f, _, rfl⟩ := hf
    refine ⟨fu, hfu, ?_⟩
    rw [written_append, written_append]
    refine List.mem_append_left _ (List.mem_append_left _ (List.mem_append_left _ ?_))
    exact mem_written.mpr List.mem_cons_self

/-- a `root` with any other content does not come back -/
theorem C62_processor_root_lost_neg (win : Bool) (dr : List (List Val)) (fu : Text) (hne : dr ≠ []) (hwf : WFFile dr)
    (hfu : WFFile [[.str ['2'], .str fu, .str []]]) (hother : dr ≠ [[.str ['2'], .str fu, .str []]]) :
    braceFile win [[.str ['2'], .str fu, .str []]] ≠ braceFile win dr :=
  fun h => hother (braceFile_inj (List.cons_ne_nil _ _) hfu hne hwf h).symm

/-! ## the name of the product -/

theorem comment_frame {o : Options} {hp : List Nat} {pv : Text} {h h' : Val} (hs : V8.Product.setComment o hp pv h = some h') :
    getAt h' (hp ++ [2]) = getAt h (hp ++ [2]) := by
  rw [V8.Product.setComment.eq_def] at hs
  by_cases hpv : pv = []
  · rw [if_pos hpv] at hs; cases hs; rfl
  · rw [if_neg hpv] at hs
    cases hg : getAt h (hp ++ [4]) with
    | none => rw [hg] at hs; cases hs
    | some w =>
      rw [hg] at hs
      cases w with
      | none => cases hs
      | list _ => cases hs
      | str tok =>
        simp only at hs
        cases hb : V8.Str.breakOn V8.Product.mark (V8.Module.strDecode tok) with
        | mk a b =>
          rw [hb] at hs
          cases b with
          | none => cases hs; rfl
          | some b =>
            simp only at hs
            by_cases ho : o.productVersion = []
            · rw [if_pos ho] at hs; cases hs; rfl
            · rw [if_neg ho] at hs
              refine getAt_frame _ _ _ _ _ hs ?_ ?_
              · rw [List.prefix_append_right_inj]; decide
              · rw [List.prefix_append_right_inj]; decide

theorem compat_frame {slot q : List Nat} {o : Options} {m : Option Val} {h h' : Val} (hs : V8.Product.buildCompat slot o m h = some h') (h1 : ¬ slot <+: q)
    (h2 : ¬ q <+: slot) : getAt h' q = getAt h q := by
  unfold V8.Product.buildCompat at hs
  cases hv : o.version with
  | some v => rw [hv] at hs; exact getAt_frame _ _ _ _ _ hs h1 h2
  | none =>
    rw [hv] at hs
    cases m with
    | none => cases hs; rfl
    | some v => exact getAt_frame _ _ _ _ _ hs h1 h2

/-- no option of the build touches the name of the product -/
theorem headerIn_name {c : Cls} {o : Options} {file : Text} {j : JT} {h h' : Val} (hs : headerIn c o file j h = some h') :
    getAt h' ((kindOf c).head ++ [2]) = getAt h ((kindOf c).head ++ [2]) := by
  cases c with
  | config =>
    simp only [headerIn, Option.bind_eq_some_iff] at hs
    obtain ⟨m, _, hs⟩ := hs
    exact compat_frame hs (by decide) (by decide)
  | extension =>
    simp only [headerIn, Option.bind_eq_some_iff] at hs
    obtain ⟨m, _, h2, ⟨h1, hi, hc⟩, hp⟩ := hs
    have e1 : getAt h' (V8.Product.rootHeader ++ [2]) = getAt h2 (V8.Product.rootHeader ++ [2]) := by
      unfold V8.Product.buildPrefix at hp
      cases hv : o.pfx with
      | none => rw [hv] at hp; cases hp; rfl
      | some p => rw [hv] at hp; exact getAt_frame _ _ _ _ _ hp (by decide) (by decide)
    have e2 : getAt h2 (V8.Product.rootHeader ++ [2]) = getAt h1 (V8.Product.rootHeader ++ [2]) := compat_frame hc (by decide) (by decide)
    have e3 : getAt h1 (V8.Product.rootHeader ++ [2]) = getAt h (V8.Product.rootHeader ++ [2]) := by
      simp only [V8.Product.setInfoExt, Option.bind_eq_some_iff] at hi
      obtain ⟨h0, hv, hi⟩ := hi
      have e4 : getAt h0 (V8.Product.rootHeader ++ [2]) = getAt h (V8.Product.rootHeader ++ [2]) := by
        unfold V8.Product.setVersion at hv
        exact getAt_frame _ _ _ _ _ hv (by decide) (by decide)
      by_cases hf : file = []
      · rw [if_pos hf] at hi; cases hi; exact e4
      · rw [if_neg hf] at hi; exact (comment_frame hi).trans e4
    exact (e1.trans e2).trans e3
  | processor =>
    simp only [headerIn, V8.Product.setInfoEdp] at hs
    by_cases hf : file = []
    · rw [if_pos hf] at hs; cases hs; rfl
    · rw [if_neg hf] at hs; exact comment_frame hs

theorem rootVal_rootOf : ∀ {v : Val} {d : List (List Val)}, rootOf v = some d → rootVal d = v
  | .none, _, h => by cases h
  | .str _, _, h => by cases h
  | .list [], d, h => by
    simp only [rootOf, List.mapM_nil, Option.pure_def, Option.some.injEq] at h
    subst h
    rfl
  | .list (x :: l), d, h => by
    simp only [rootOf, List.mapM_cons, Option.pure_def, Option.bind_eq_bind, Option.bind_eq_some_iff, Option.some.injEq] at h
    obtain ⟨a, ha, b, hb, rfl⟩ := h
    have ih := rootVal_rootOf (v := .list l) (d := b) hb
    unfold rootVal at ih ⊢
    cases x with
    | none => cases ha
    | str _ => cases ha
    | list y =>
      cases ha
      rw [List.map_cons, Val.list.inj ih]

/-- C62, limit: extraction takes the prefix off the name of the product as off any other name (decodeHeader), but the build never puts it back on a
product: without auto_include the file of the header is written with the name that stands in the description -/
theorem C62_name_written_as_described (e : Env) (c : Cls) (ver file : Text) (made : List Text) (es : List Entry) (S : Text → Option Bytes) (j : JT)
    (fs : List (Text × Node)) (ha : e.y.auto = false) (h : rootIn e c ver file made es S j = some fs) :
    ∃ fu hd d, textAt j "file_uuid".toList = some fu ∧ treeAt j "header".toList = some hd ∧ (fu, Node.file (braceFile e.y.win d)) ∈ fs ∧
      getAt (rootVal d) ((kindOf c).head ++ [2]) = getAt hd ((kindOf c).head ++ [2]) := by
  unfold rootIn at h
  simp only [Option.bind_eq_some_iff] at h
  obtain ⟨u, _, fu, hfu, h0, hh, v8, _, h⟩ := h
  by_cases hv : V8.Misc.checkVersion e.tool v8 ≠ .ok ()
  · rw [if_pos hv] at h; cases h
  · rw [if_neg hv] at h
    simp only [Option.bind_eq_some_iff, Option.map_eq_some_iff] at h
    obtain ⟨o, _, h1, hi, h2, hl, d, hd, front, hf, parts, _, infos, _, rfl⟩ := h
    unfold listsIn at hl
    rw [if_pos (.inr ha)] at hl
    cases hl
    refine ⟨fu, h0, d, hfu, hh, ?_, ?_⟩
    · rw [written_append, written_append]
      refine List.mem_append_left _ (List.mem_append_left _ (List.mem_append_left _ ?_))
      refine mem_written.mpr ?_
      cases c with
      | config =>
        simp only [frontIn, Option.bind_eq_some_iff, Option.map_eq_some_iff] at hf
        obtain ⟨v, _, ci, _, rfl⟩ := hf
        exact List.mem_cons_of_mem _ (List.mem_cons_of_mem _ List.mem_cons_self)
      | extension =>
        simp only [frontIn, Option.bind_eq_some_iff, Option.map_eq_some_iff] at hf
        obtain ⟨v, _, ci, _, q, _, rfl⟩ := hf
        exact List.mem_cons_of_mem _ List.mem_cons_self
      | processor =>
        simp only [frontIn, Option.bind_eq_some_iff, Option.map_eq_some_iff] at hf
        obtain ⟨v, _, ci, _, q, _, rfl⟩ := hf
        exact List.mem_cons_of_mem _ (List.mem_cons_of_mem _ (List.mem_cons_of_mem _ List.mem_cons_self))
    · rw [rootVal_rootOf hd]
      exact headerIn_name hi

/-- the name in the description of a product, when the container's name has the prefix -/
theorem C62_prefix_taken_off (valid : Text → Bool) (p rest : Text) (h h' : List Val) (info : Info) (tok : Text) (hp : p ≠ [])
    (ht : h[2]? = some (.str tok)) (hr : V8.Module.strDecode tok = p ++ rest) (hd : decodeHeader valid p false h = .ok (info, h')) :
    h'[2]? = some (.str (V8.Module.strEncode rest)) ∧ info.name = rest := by
  obtain ⟨l, tok', h1, h2, _, h3, h5, h4⟩ := decode_ok hd
  rw [ht] at h3
  cases h3
  have hname : info.name = rest := by
    rw [h5, stripped, if_pos ⟨hp, by rw [hr, List.isPrefixOf_iff_prefix]; exact List.prefix_append _ _⟩, hr, List.drop_left]
  rw [hr] at h4
  simp only [if_pos (show p ≠ [] ∧ p <+: p ++ rest from ⟨hp, List.prefix_append _ _⟩), Bool.false_eq_true, if_false] at h4
  rw [h4, hname]
  refine ⟨?_, rfl⟩
  obtain ⟨h2l, _⟩ := List.getElem?_eq_some_iff.mp ht
  rw [List.getElem?_set_self h2l]

/-! ## folders in an extension -/

/-- a folder without the file or folder `m` -/
def without (m : Text) (F : Text → Option Node) : Text → Option Node := fun n => if n = m then none else F n

theorem infosOut_without {F : Text → Option Node} {u m : Text} {f : Text → Option Bytes} (hm : F m = some (.dir f)) : ∀ l : List Text,
    infosOut (without m F) u l = infosOut F u l
  | [] => rfl
  | n :: l => by
    rw [infosOut, infosOut, infosOut_without hm l]
    have : fileOnly (without m F (dot u n)) = fileOnly (F (dot u n)) := by
      unfold without
      by_cases h : dot u n = m
      · rw [if_pos h, h, hm]; rfl
      · rw [if_neg h]
    rw [this]

theorem codesOut_same {w cd : Bool} {k : Text} {F F' : Text → Option Node} {u : Text} : ∀ l : List (Text × Text),
    (∀ c ∈ l, F' (dot u c.2) = F (dot u c.2)) → codesOut w cd k F' u l = codesOut w cd k F u l
  | [], _ => rfl
  | c :: l, h => by
    rw [codesOut, codesOut, codeOut, codeOut, h c List.mem_cons_self, codesOut_same l (fun q hq => h q (List.mem_cons_of_mem _ hq))]

theorem filesOut_same {w : Bool} {k : Text} {F F' : Text → Option Node} {u : Text} : ∀ l : List Text,
    (∀ n ∈ l, F' (dot u n) = F (dot u n)) → filesOut w k F' u l = filesOut w k F u l
  | [], _ => rfl
  | c :: l, h => by
    rw [filesOut, filesOut, fileAt, fileAt, h c List.mem_cons_self, filesOut_same l (fun q hq => h q (List.mem_cons_of_mem _ hq))]

/-- C62, limit: a folder in the place of the file `.8` or `.9` of an extension is passed over (ConfigurationExtension.py:44-45): the parts that are
extracted are the same as if it were missing, so that it is lost without a word -/
theorem C62_folder_of_extension_lost_neg (win : Bool) (F : Text → Option Node) (u n : Text) (f : Text → Option Bytes) (hn : n ∈ extension.infos)
    (hF : F (dot u n) = some (.dir f)) : partsOut win extension false (without (dot u n) F) u = partsOut win extension false F u := by
  have hd : ∀ n ∈ extension.infos, (∀ c ∈ extension.codes, c.2 ≠ n) ∧ ∀ q ∈ extension.files, q ≠ n := by decide +kernel
  have hc := codesOut_same (w := win) (cd := false) (k := extension.name) (F := F) (F' := without (dot u n) F) (u := u) extension.codes
    (fun c hc => by unfold without; rw [if_neg (fun he => (hd n hn).1 c hc (dot_inj he))])
  have hf := filesOut_same (w := win) (k := extension.name) (F := F) (F' := without (dot u n) F) (u := u) extension.files
    (fun c hc => by unfold without; rw [if_neg (fun he => (hd n hn).2 c hc (dot_inj he))])
  unfold partsOut
  rw [infosOut_without hF, hc, hf]
  rfl

end V8.Root
