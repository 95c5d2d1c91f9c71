import Verif.PathLemmas
import Verif.Props.Container
/-
Property theorems C72 about where extraction writes (Verif/PathText.lean).
-/
namespace V8.Path
open V8.Str V8.Header

/-! ## Entries of containers -/

theorem putFile_names (files : List File) (x : File) (h : (files.map (·.name)).Nodup) :
    ((putFile files x).map (·.name)).Nodup := by
  unfold putFile
  split
  · have : (files.map (fun y => if y.name = x.name then x else y)).map (·.name) = files.map (·.name) := by
      rw [List.map_map]
      apply List.map_congr_left
      intro y _
      simp only [Function.comp]
      split
      · rename_i h; exact h.symm
      · rfl
    rw [this]; exact h
  · rename_i hn
    rw [List.map_append, List.nodup_append]
    refine ⟨h, by simp, ?_⟩
    intro a ha b hb hab
    obtain ⟨y, hy, rfl⟩ := List.mem_map.mp ha
    simp only [List.map_cons, List.map_nil, List.mem_singleton] at hb
    subst hb
    exact hn (List.any_eq_true.mpr ⟨y, hy, by simpa using hab⟩)

theorem readEntries_names (fm : Fmt) (fuel : Nat) (f : Bytes) (coff dflt : Int) (l : List (Int × Int)) (acc : Int × List File)
    (h : (acc.2.map (·.name)).Nodup) (r : Int × List File) (hr : readEntries fm fuel f coff dflt l acc = .ok r) :
    (r.2.map (·.name)).Nodup := by
  induction l generalizing acc with
  | nil => rw [readEntries] at hr; injection hr with hr; rw [← hr]; exact h
  | cons p l ih =>
    obtain ⟨ao, dof⟩ := p
    obtain ⟨size, files⟩ := acc
    rw [readEntries] at hr
    cases h1 : readDoc fm fuel f coff ao 0 with
    | error e => rw [h1] at hr; cases hr
    | ok ad =>
      rw [h1] at hr
      simp only at hr
      cases h2 : parseAttr ad.dataSize ad.data with
      | error e => rw [h2] at hr; cases hr
      | ok t =>
        obtain ⟨ct, mt, name⟩ := t
        rw [h2] at hr
        simp only at hr
        cases h3 : readDoc fm fuel f coff dof dflt with
        | error e => rw [h3] at hr; cases hr
        | ok dd =>
          rw [h3] at hr
          simp only at hr
          exact ih _ (putFile_names _ _ h) hr

theorem readContainer_names (fm : Fmt) (fuel : Nat) (f : Bytes) (coff : Int) (r : ReadResult)
    (hr : readContainer fm fuel f coff = .ok r) : (r.files.map (·.name)).Nodup := by
  unfold readContainer at hr
  by_cases h0 : coff < 0
  · rw [if_pos h0] at hr; cases hr
  rw [if_neg h0] at hr
  simp only at hr
  by_cases h1 : (readAt f coff.toNat fm.headerSize).length ≠ fm.headerSize
  · rw [if_pos h1] at hr; cases hr
  rw [if_neg h1] at hr
  by_cases h2 : leInt32 (((readAt f coff.toNat fm.headerSize).drop fm.idxW).take 4) = 0
  · rw [if_pos h2] at hr; cases hr
  rw [if_neg h2] at hr
  cases h3 : readDoc fm fuel f coff fm.headerSize fm.indexBlock with
  | error e => rw [h3] at hr; cases hr
  | ok toc =>
    rw [h3] at hr
    simp only at hr
    cases h4 : mapExcept fm.unpackPair (bsplit (leBytes fm.idxW fm.marker) toc.data).dropLast with
    | error e => rw [h4] at hr; cases hr
    | ok offs =>
      rw [h4] at hr
      simp only at hr
      cases h5 : readEntries fm fuel f coff (leInt32 (((readAt f coff.toNat fm.headerSize).drop fm.idxW).take 4)) offs
          (fm.headerSize + toc.fullSize, []) with
      | error e => rw [h5] at hr; cases hr
      | ok q =>
        rw [h5] at hr
        injection hr with hr
        rw [← hr]
        exact readEntries_names _ _ _ _ _ _ (_, []) List.nodup_nil _ h5

theorem extractLoop_names (f : Bytes) (fuel steps : Nat) (off : Int) (outs : List (List File))
    (h : extractLoop f fuel steps off = .ok outs) : ∀ files ∈ outs, (files.map (·.name)).Nodup := by
  induction steps generalizing off outs with
  | zero => cases h
  | succ steps ih =>
    rw [extractLoop] at h
    cases hd : detectFormat f off with
    | error e => rw [hd] at h; cases h
    | ok o =>
      rw [hd] at h
      cases o with
      | none => injection h with h; subst h; intro files hf; cases hf
      | some fm =>
        simp only at h
        cases hr : readContainer fm fuel f off with
        | error e => rw [hr] at h; cases h
        | ok r =>
          rw [hr] at h
          simp only at h
          by_cases h0 : off + r.size = 0
          · rw [if_pos h0] at h; cases h
          rw [if_neg h0] at h
          cases hx : extractLoop f fuel steps (off + r.size) with
          | error e => rw [hx] at h; cases h
          | ok rest =>
            rw [hx] at h
            injection h with h
            subst h
            intro files hf
            rcases List.mem_cons.mp hf with rfl | hf
            · exact readContainer_names _ _ _ _ _ hr
            · exact ih _ _ hx files hf

theorem entryWrites_mem (folder : Text) (n : Nat) (outs : List (List File)) (hp : ∀ files ∈ outs, ∀ x ∈ files, Plain x.name) :
    ∀ w ∈ entryWrites folder n outs, ∃ i files x, outs[i]? = some files ∧ x ∈ files ∧ w.2 = x.data ∧
      place w.1 = place folder ++ [Dec.showNat (n + i), x.name] := by
  induction outs generalizing n with
  | nil => intro w hw; cases hw
  | cons files rest ih =>
    intro w hw
    rw [entryWrites] at hw
    rcases List.mem_append.mp hw with hw | hw
    · obtain ⟨x, hx, rfl⟩ := List.mem_map.mp hw
      refine ⟨0, files, x, rfl, hx, rfl, ?_⟩
      rw [place_plain _ _ (hp files (by simp) x hx), place_plain _ _ (plain_number n)]
      simp
    · obtain ⟨i, fs, x, h1, h2, h3, h4⟩ := ih (n + 1) (fun fs hf => hp fs (by simp [hf])) w hw
      exact ⟨i + 1, fs, x, h1, h2, h3, by rw [h4]; congr 3; omega⟩

theorem entryWrites_nodup (folder : Text) (n : Nat) (outs : List (List File)) (hp : ∀ files ∈ outs, ∀ x ∈ files, Plain x.name)
    (hn : ∀ files ∈ outs, (files.map (·.name)).Nodup) : ((entryWrites folder n outs).map (fun w => place w.1)).Nodup := by
  induction outs generalizing n with
  | nil => exact List.nodup_nil
  | cons files rest ih =>
    rw [entryWrites, List.map_append, List.nodup_append]
    refine ⟨?_, ih (n + 1) (fun fs hf => hp fs (by simp [hf])) (fun fs hf => hn fs (by simp [hf])), ?_⟩
    · have h1 : (files.map (fun x => (join (join folder (Dec.showNat n)) x.name, x.data))).map (fun w => place w.1) =
          (files.map (·.name)).map (fun nm => place folder ++ [Dec.showNat n, nm]) := by
        rw [List.map_map, List.map_map]
        apply List.map_congr_left
        intro x hx
        simp only [Function.comp]
        rw [place_plain _ _ (hp files (by simp) x hx), place_plain _ _ (plain_number n)]
        simp
      rw [h1, List.Nodup, List.pairwise_map]
      refine List.Pairwise.imp ?_ (hn files (by simp))
      intro a b hab hc
      apply hab
      have := List.append_cancel_left hc
      simpa using this
    · intro a ha b hb hab
      subst hab
      obtain ⟨w, hw, rfl⟩ := List.mem_map.mp ha
      obtain ⟨w', hw', he⟩ := List.mem_map.mp hb
      obtain ⟨x, hx, rfl⟩ := List.mem_map.mp hw
      obtain ⟨i, fs, y, h1, h2, _, h4⟩ := entryWrites_mem folder (n + 1) rest (fun fs hf => hp fs (by simp [hf])) w' hw'
      rw [h4] at he
      simp only at he
      rw [place_plain _ _ (hp files (by simp) x hx), place_plain _ _ (plain_number n), List.append_assoc] at he
      have h5 := List.append_cancel_left he
      simp only [List.cons_append, List.nil_append, List.cons.injEq] at h5
      have h6 := Dec.showNat_val (n + 1 + i)
      rw [h5.1, Dec.showNat_val] at h6
      omega

/-- **C72 (entries of a container).**  For every product file: if the names of its entries are single names (as the names
of files in a folder always are), then the first stage of `extract` writes each entry to its own place
`folder/<container>/<name>`, below the folder it was told to use, and no two entries to the same place. -/
theorem C72_entries_inside (f : Bytes) (fuel steps : Nat) (folder : Text) (outs : List (List File)) (ws : List (Text × Bytes))
    (ho : extractLoop f fuel steps 0 = .ok outs) (hw : extractTo f fuel steps folder = .ok ws)
    (hp : ∀ files ∈ outs, ∀ x ∈ files, Plain x.name) :
    (∀ w ∈ ws, ∃ i files x, outs[i]? = some files ∧ x ∈ files ∧ w.2 = x.data ∧
      place w.1 = place folder ++ [Dec.showNat i, x.name]) ∧
    (ws.map (fun w => place w.1)).Nodup ∧ ws.length = (outs.map List.length).sum := by
  unfold extractTo at hw
  rw [ho] at hw
  injection hw with hw
  subst hw
  refine ⟨?_, entryWrites_nodup folder 0 outs hp (extractLoop_names f fuel steps 0 outs ho), ?_⟩
  · intro w hw
    obtain ⟨i, files, x, h1, h2, h3, h4⟩ := entryWrites_mem folder 0 outs hp w hw
    exact ⟨i, files, x, h1, h2, h3, by rw [h4, Nat.zero_add]⟩
  · generalize 0 = n
    clear ho hp
    induction outs generalizing n with
    | nil => rfl
    | cons files rest ih => rw [entryWrites, List.length_append, List.length_map, ih, List.map_cons, List.sum_cons]

/-- **C72 (any entry name).**  Where an entry of any name leads: an absolute name leaves the folder altogether, any other
one is followed from the folder of its container, `..` by `..`. -/
theorem C72_entry_place (folder : Text) (n : Nat) (name : Text) :
    place (join (join folder (Dec.showNat n)) name) =
      if name.head? = some '/' then place name
      else (split '/' name).foldl step (place folder ++ [Dec.showNat n]) := by
  rw [place_join, place_plain _ _ (plain_number n)]

/-- **C72 is false of the code.**  For every folder, every place in the file system and every content there is a product
file from which `extract` writes that content to that place. -/
theorem C72_entry_escapes_neg (target : List Text) (hne : target ≠ []) (ht : ∀ c ∈ target, Plain c ∧ Char.ofNat 0 ∉ c)
    (data : Bytes) (hsz : 4 * (pathOf target).length + data.length + 3000 < 2 ^ 31) :
    ∃ f, ∀ folder fuel steps, f.length ≤ fuel → 2 ≤ steps →
      ∃ p, extractTo f fuel steps folder = .ok [(p, data)] ∧ place p = target := by
  have hgood : ∀ s ∈ [(⟨pathOf target, 0, 0, data⟩ : SrcFile)], GoodName s.name := by
    intro s hs
    rw [List.mem_singleton] at hs
    subst hs
    refine ⟨?_, ?_⟩
    · have := pathOf_head target hne
      unfold NoBom
      cases hp : pathOf target with
      | nil => rw [hp] at this; cases this
      | cons c t =>
        simp only [hp, List.head?_cons, Option.some.injEq] at this
        subst this
        simp
    · intro c hc h0
      subst h0
      simp only [pathOf, List.mem_flatMap] at hc
      obtain ⟨x, hx, hc⟩ := hc
      rcases List.mem_cons.mp hc with hc | hc
      · revert hc; decide
      · exact (ht x hx).2 hc
  obtain ⟨f, hf, hl⟩ := C01_build_succeeds id [(⟨pathOf target, 0, 0, data⟩ : SrcFile)] (by simp)
    (by intro s hs; rw [List.mem_singleton] at hs; subst hs; exact ⟨Nat.pow_pos (by decide), Nat.pow_pos (by decide)⟩) (by
      simp only [List.map_cons, List.map_nil, List.sum_cons, List.sum_nil, SrcFile.cost]; omega)
  refine ⟨f, fun folder fuel steps hfu hst => ?_⟩
  obtain ⟨out, hx, hperm, _⟩ := C01_build_extract id _ f (by simp) hgood hf hl fuel steps hfu hst
  have hout : out = [(⟨pathOf target, 0, 0, data⟩ : SrcFile).expected] := List.perm_singleton.mp hperm
  subst hout
  refine ⟨join (join folder (Dec.showNat 0)) (pathOf target), ?_, ?_⟩
  · unfold extractTo; rw [hx]; rfl
  · rw [C72_entry_place, if_pos (pathOf_head target hne), place_pathOf _ (fun c hc => (ht c hc).1)]

/-! ## Folders of objects -/

/-- **C72 (folders of objects).**  An object whose name is a single name gets a folder of that name in the folder of its
parent; a name that is none leads elsewhere. -/
theorem C72_object_inside (destDir destPath name : Text) (h : Plain name) :
    place (objectFolder destDir destPath name) = place (join destDir destPath) ++ [name] := by
  unfold objectFolder
  rw [place_assoc, place_plain _ _ h]

/-- **C72 is false of the code for objects, too.**  For every place there is a header of an object - accepted by
decode_header, whatever the prefix option - for which extraction makes that place its folder. -/
theorem C72_object_escapes_neg (valid : Text → Bool) (u : Text) (hu : valid u = true) (pre : Text) (hpre : '/' ∉ pre) (sep : Bool)
    (target : List Text) (hne : target ≠ []) (ht : ∀ c ∈ target, Plain c) :
    ∃ h info h', decodeHeader valid pre sep h = .ok (info, h') ∧
      ∀ destDir destPath, place (objectFolder destDir destPath info.name) = target := by
  let tok := Module.strEncode (pathOf target)
  let h : List Brace.Val := [.str ['0'], .list [.str ['1'], .str ['1'], .str u], .str tok, .list [.str ['0']], .str ['"', '"']]
  have hname : Module.strDecode tok = pathOf target := by
    show Module.strDecode (Module.strEncode (pathOf target)) = _
    unfold Module.strDecode Module.strEncode
    simp
  have hhead := pathOf_head target hne
  have hstrip : stripped pre (pathOf target) = pathOf target := by
    unfold stripped
    rw [if_neg]
    intro hc
    obtain ⟨c, p, rfl⟩ : ∃ c p, pre = c :: p := by
      cases pre with
      | nil => exact absurd rfl hc.1
      | cons c p => exact ⟨c, p, rfl⟩
    cases hp : pathOf target with
    | nil => rw [hp] at hhead; cases hhead
    | cons d t =>
      rw [hp] at hc hhead
      simp only [List.head?_cons, Option.some.injEq] at hhead
      simp only [List.isPrefixOf, Bool.and_eq_true, beq_iff_eq] at hc
      exact hpre (by rw [hc.2.1, hhead]; simp)
  have hfold : ∀ destDir destPath, place (objectFolder destDir destPath (pathOf target)) = target := by
    intro destDir destPath
    unfold objectFolder
    have : join destPath (pathOf target) = pathOf target := by unfold join; rw [if_pos hhead]
    rw [this, place_join, if_pos hhead, place_pathOf _ ht]
  have hpn : ¬ (pre ≠ [] ∧ pre.isPrefixOf (pathOf target) = true) := by
    intro hc
    have h1 : stripped pre (pathOf target) = (pathOf target).drop pre.length := by unfold stripped; rw [if_pos hc]
    rw [hstrip] at h1
    have := congrArg List.length h1
    rw [List.length_drop] at this
    have h2 : 0 < pre.length := List.length_pos_iff.mpr hc.1
    have h3 : 0 < (pathOf target).length := by
      apply List.length_pos_iff.mpr; intro h0; rw [h0] at hhead; cases hhead
    omega
  have hz : Dec.parseInt ['0'] = some 0 := by decide
  cases sep with
  | false =>
    refine ⟨h, ⟨u, pathOf target, [], []⟩, h, ?_, hfold⟩
    simp only [decodeHeader, h, listAt, strAt, List.getElem?_cons_zero, List.getElem?_cons_succ, Option.bind_some, hu,
      hz, hname, hstrip, if_neg hpn, readNames, Int.toNat_zero]
    rfl
  | true =>
    refine ⟨h, ⟨u, pathOf target, [], []⟩, h.set 1 (.list [.str ['1'], .str ['1'], .str elsewhere]), ?_, hfold⟩
    simp only [decodeHeader, h, listAt, strAt, List.getElem?_cons_zero, List.getElem?_cons_succ, Option.bind_some, hu,
      hz, hname, hstrip, if_neg hpn, readNames, Int.toNat_zero, setUuid]
    rfl

/-! ## Areas of modules -/

/-- **C72 (areas of modules).**  The file an area is written to, computed with text paths as the code does, is the one of
the model of C15 and C49 (`Code.parse`, which works with lists of names), for every area name without a slash. -/
theorem C72_area_place (index : Text → Option Text) (descent : Bool) (destDir key path : Text)
    (hs : '/' ∉ (index key).getD key) :
    let r := Code.parse ⟨place destDir, index, descent⟩ key (place (join destDir path))
    (includePath index descent key path).2 = r.2 ∧
    place (join destDir (includePath index descent key path).1) = r.1 ∧
    place (includeFile index descent destDir key path) = r.1 ++ [r.2] := by
  intro r
  have hfile : (includePath index descent key path).2 = r.2 := rfl
  generalize hN : (index key).getD key = name at *
  have hparts : ∀ c ∈ split '_' name, '/' ∉ c := by
    intro c hc h
    apply hs
    have : ∀ (d : Char) (s : Text), ∀ p ∈ split d s, ∀ x ∈ p, x ∈ s := by
      intro d s
      induction s with
      | nil => intro p hp x hx; simp only [split, List.mem_singleton] at hp; subst hp; exact hx
      | cons a s ih =>
        intro p hp x hx
        rw [split] at hp
        by_cases ha : a = d
        · rw [if_pos ha] at hp
          rcases List.mem_cons.mp hp with rfl | hp
          · cases hx
          · exact List.mem_cons_of_mem _ (ih p hp x hx)
        · rw [if_neg ha] at hp
          cases hsp : split d s with
          | nil => exact absurd hsp (split_ne _ _)
          | cons b r =>
            rw [hsp] at hp ih
            simp only at hp
            rcases List.mem_cons.mp hp with rfl | hp
            · rcases List.mem_cons.mp hx with rfl | hx
              · simp
              · exact List.mem_cons_of_mem _ (ih b (by simp) x hx)
            · exact List.mem_cons_of_mem _ (ih p (by simp [hp]) x hx)
    exact this '_' name c hc '/' h
  have hmid : ∀ c ∈ (split '_' name).dropLast.map (fun c => if c = [] then "..".toList else c), '/' ∉ c ∧ c ≠ [] := by
    intro c hc
    obtain ⟨d, hd, rfl⟩ := List.mem_map.mp hc
    by_cases h0 : d = []
    · rw [if_pos h0]; exact ⟨by decide, by decide⟩
    · rw [if_neg h0]; exact ⟨hparts d (List.dropLast_subset _ hd), h0⟩
  have hname : Code.Env.name ⟨place destDir, index, descent⟩ key = name := hN
  have hup1 : place (join destDir "..".toList) = step (place destDir) "..".toList := by
    rw [place_join, if_neg (by decide)]
    rfl
  have hdir : place (join destDir (includePath index descent key path).1) = r.1 := by
    simp only [r, Code.parse, includePath, hname, hN]
    generalize hM : (split '_' name).dropLast.map (fun c => if c = [] then "..".toList else c) = M at *
    have hMl : M = [] ↔ ¬ 1 < (split '_' name).length := by
      rw [← hM, List.map_eq_nil_iff, ← List.length_eq_zero_iff, List.length_dropLast]
      omega
    cases descent with
    | false =>
      simp only [Bool.false_eq_true, if_false]
      by_cases h1 : M = []
      · rw [if_neg (hMl.mp h1), if_pos rfl, h1, List.append_nil, if_pos rfl]
      · have h2 : 1 < (split '_' name).length := by
          rcases Nat.lt_or_ge 1 (split '_' name).length with h | h
          · exact h
          · exact absurd (hMl.mpr (by omega)) h1
        have h3 : '/' ∈ joins "..".toList M := joins_length _ _ h1 hmid (by decide) (by decide)
        rw [if_pos h2, if_neg (by intro hc; rw [hc] at h3; revert h3; decide), if_neg (by
          intro hc
          apply h1
          have := congrArg List.length hc
          simp only [List.length_append, List.length_cons, List.length_nil] at this
          exact List.eq_nil_of_length_eq_zero (by omega))]
        rw [place_assocs, place_joins _ _ (fun c hc => (hmid c hc).1), resolve_eq, List.foldl_append, hup1]
        rfl
    | true =>
      have hj : join "..".toList "..".toList = "../..".toList := by decide
      simp only [if_true]
      by_cases h1 : M = []
      · rw [if_neg (hMl.mp h1), if_neg (by rw [hj]; decide), h1, List.append_nil, if_neg (by decide), resolve_eq, place_assoc,
          place_join, if_neg (by decide), hup1]
        rfl
      · have h2 : 1 < (split '_' name).length := by
          rcases Nat.lt_or_ge 1 (split '_' name).length with h | h
          · exact h
          · exact absurd (hMl.mpr (by omega)) h1
        have h4 : joins (join "..".toList "..".toList) M = joins "..".toList ("..".toList :: M) := rfl
        have h5 : ∀ c ∈ "..".toList :: M, '/' ∉ c ∧ c ≠ [] := by
          intro c hc
          rcases List.mem_cons.mp hc with rfl | hc
          · exact ⟨by decide, by decide⟩
          · exact hmid c hc
        have h3 : '/' ∈ joins "..".toList ("..".toList :: M) := joins_length _ _ (by simp) h5 (by decide) (by decide)
        rw [if_pos h2, h4, if_neg (by intro hc; rw [hc] at h3; revert h3; decide), if_neg (by
          intro hc
          have := congrArg List.length hc
          simp only [List.length_append, List.length_cons, List.length_nil] at this
          omega)]
        rw [place_assocs, place_joins _ _ (fun c hc => (h5 c hc).1), resolve_eq, hup1]
        rfl
  refine ⟨hfile, hdir, ?_⟩
  unfold includeFile
  simp only
  rw [place_plain, hdir, hfile]
  refine ⟨?_, ?_, ?_, ?_⟩
  · have hl : (split '_' name).getLast?.getD [] ∈ split '_' name := by
      cases hg : (split '_' name).getLast? with
      | none => exact absurd (List.getLast?_eq_none_iff.mp hg) (split_ne _ _)
      | some x => exact List.mem_of_getLast? hg
    simp only [includePath, hN]
    intro hc
    rcases List.mem_append.mp hc with hc | hc
    · exact hparts _ hl hc
    · revert hc; decide
  all_goals
    simp only [includePath, hN]
    intro hc
    have := congrArg List.length hc
    rw [List.length_append] at this
    revert this
    generalize ((split '_' name).getLast?.getD []).length = n
    intro this
    simp at this
    try omega

/-- **C72 is false of the code for areas, too**: an area whose name begins with a slash is written to a file of that name,
anywhere. -/
theorem C72_area_escapes_neg (descent : Bool) (destDir path file : Text) (target : List Text) (hne : target ≠ [])
    (ht : ∀ c ∈ target, Plain c ∧ '_' ∉ c) (hf : '/' ∉ file ∧ '_' ∉ file) :
    place (includeFile (fun _ => none) descent destDir (pathOf target ++ '_' :: file) path) =
      target ++ [file ++ ".bsl".toList] := by
  have hu : '_' ∉ pathOf target := by
    intro hc
    simp only [pathOf, List.mem_flatMap] at hc
    obtain ⟨x, hx, hc⟩ := hc
    rcases List.mem_cons.mp hc with hc | hc
    · revert hc; decide
    · exact (ht x hx).2 hc
  have hsp : split '_' (pathOf target ++ '_' :: file) = [pathOf target, file] := by
    rw [split_append _ _ _ hu, split_clean _ _ hf.2]
  have hhead := pathOf_head target hne
  have hpne : pathOf target ≠ [] := by intro h0; rw [h0] at hhead; cases hhead
  have hj : ∀ a : Text, join a (pathOf target) = pathOf target := by
    intro a; unfold join; rw [if_pos hhead]
  have hip : includePath (fun _ => none) descent (pathOf target ++ '_' :: file) path = (pathOf target, file ++ ".bsl".toList) := by
    simp only [includePath, Option.getD_none, hsp]
    have hm : ([pathOf target, file].dropLast.map (fun c => if c = [] then "..".toList else c)) = [pathOf target] := by
      show [if pathOf target = [] then "..".toList else pathOf target] = _
      rw [if_neg hpne]
    rw [hm]
    have hjs : ∀ a, joins a [pathOf target] = pathOf target := hj
    have hlen : 1 < [pathOf target, file].length := by simp
    rw [if_pos hlen, hjs, if_neg (by
      intro hc; rw [hc] at hhead; revert hhead; decide)]
    rfl
  unfold includeFile
  rw [hip]
  simp only
  rw [place_plain, hj, place_pathOf _ (fun c hc => (ht c hc).1)]
  refine ⟨?_, ?_, ?_, ?_⟩
  · intro hc
    rcases List.mem_append.mp hc with hc | hc
    · exact hf.1 hc
    · revert hc; decide
  all_goals
    intro hc
    have := congrArg List.length hc
    rw [List.length_append] at this
    revert this
    generalize file.length = n
    intro this
    simp at this
    try omega

/-- the hypotheses are met: a product of two files -/
example : ∃ f outs ws, extractLoop f f.length 2 0 = .ok outs ∧ extractTo f f.length 2 "/tmp/x".toList = .ok ws ∧
    (∀ files ∈ outs, ∀ x ∈ files, Plain x.name) ∧ ws.length = 2 := by
  obtain ⟨f, hf, hl⟩ := C01_build_succeeds id [(⟨"a".toList, 5, 6, [1, 2]⟩ : SrcFile), ⟨"b".toList, 7, 8, [3]⟩] (by simp)
    (by decide) (by decide)
  have hgood : ∀ s ∈ [(⟨"a".toList, 5, 6, [1, 2]⟩ : SrcFile), ⟨"b".toList, 7, 8, [3]⟩], GoodName s.name ∧ Plain s.name := by
    intro s hs
    rcases List.mem_cons.mp hs with rfl | hs
    · exact ⟨⟨by decide, by decide⟩, by decide, by decide, by decide, by decide⟩
    · rw [List.mem_singleton] at hs; subst hs; exact ⟨⟨by decide, by decide⟩, by decide, by decide, by decide, by decide⟩
  obtain ⟨out, hx, hp, _⟩ := C01_build_extract id _ f (by decide) (fun s hs => (hgood s hs).1) hf hl f.length 2 (Nat.le_refl _) (Nat.le_refl _)
  refine ⟨f, [out], entryWrites "/tmp/x".toList 0 [out], hx, by unfold extractTo; rw [hx], ?_, ?_⟩
  · intro files hfs x hxm
    rw [List.mem_singleton] at hfs
    subst hfs
    obtain ⟨s, hs, rfl⟩ := List.mem_map.mp (hp.subset hxm)
    exact (hgood s hs).2
  · have := hp.length_eq
    simp only [entryWrites, List.append_nil, List.length_map]
    rw [this]; rfl

example : ∃ target : List Text, target ≠ [] ∧ (∀ c ∈ target, Plain c ∧ Char.ofNat 0 ∉ c ∧ '_' ∉ c) ∧
    4 * (pathOf target).length + ([1, 2] : Bytes).length + 3000 < 2 ^ 31 := by
  refine ⟨["etc".toList, "passwd".toList], by simp, ?_, by decide⟩
  intro c hc
  rcases List.mem_cons.mp hc with rfl | hc
  · exact ⟨⟨by decide, by decide, by decide, by decide⟩, by decide, by decide⟩
  · rw [List.mem_singleton] at hc; subst hc; exact ⟨⟨by decide, by decide, by decide, by decide⟩, by decide, by decide⟩

end V8.Path
