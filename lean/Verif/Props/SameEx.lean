import Verif.Props.Same
import Verif.Props.OrderEx
import Verif.Props.WholeEx
/-
Examples for C85 and for C84 at depth three: the product file of WholeEx (a configuration with a subsystem, in it a table, in it a command) is extracted and built twice, the second time with all three folders renamed, other random identifiers and
other times.
-/
namespace V8.Same
open V8.Enc V8.Zlib V8.Stage V8.Whole V8.Store V8.Tree V8.Product V8.Order V8.Header
open V8.Nested hiding Handler Env
open V8.Object hiding Cls
open V8.Misc (Cls configinfoName)
open V8.Root (buildProduct extractProduct pE pInfo pDetect pProduct pInner pRootOut)
open V8.Brace (Val)

/-- one folder in a place is alone there -/
theorem one_unambiguous {K : Text → Option Handler} {ty nm : Text} {f : List (Place Store.Node)} {t : Subs} (h : Unambiguous K t) : Unambiguous K (.ofList [(ty, nm, .mk f t)]) := by
  intro u hb
  generalize hs : Subs.ofList [(ty, nm, Tree.Dir.mk f t)] = s at hb
  cases hb with
  | here =>
    subst hs
    intro ord con parent es fs _ hh
    rw [Subs.ofList, Subs.ofList, buildSubs, buildSubs] at hh
    simp only [Option.bind_eq_some_iff, Option.map_eq_some_iff] at hh
    obtain ⟨⟨e1, f1⟩, h1, ⟨e2, f2⟩, h2, h3⟩ := hh
    cases h2
    cases h3
    have hone : ∀ (o : Option Given), entries ty o = [] ∨ ∃ a, entries ty o = [a] := by
      intro o
      cases o with
      | none => exact .inl rfl
      | some g =>
        unfold entries
        by_cases ht : truthy g.data = true
        · exact .inr ⟨_, by simp only [ht, if_true]; rfl⟩
        · exact .inl (by simp only [ht, Bool.false_eq_true, if_false])
    have hlen : e1 = [] ∨ ∃ a, e1 = [a] := by
      rw [buildDir] at h1
      cases hk : K ty with
      | none => rw [hk] at h1; cases h1
      | some hd =>
        rw [hk] at h1
        simp only [] at h1
        by_cases c1 : hd.has (folder f) = false
        · rw [if_pos c1] at h1; cases h1; exact .inl rfl
        rw [if_neg c1] at h1
        by_cases c2 : hd.kids = false ∨ t.isNil = true
        · rw [if_pos c2, Option.map_eq_some_iff] at h1
          obtain ⟨b, _, hb⟩ := h1
          cases hb
          exact hone _
        · rw [if_neg c2, Option.bind_eq_some_iff] at h1
          obtain ⟨r, _, hb⟩ := h1
          by_cases c3 : r.1 = []
          · rw [if_pos c3] at hb; cases hb
          rw [if_neg c3, Option.map_eq_some_iff] at hb
          obtain ⟨b, _, hb⟩ := hb
          cases hb
          exact hone _
    rcases hlen with rfl | ⟨a, rfl⟩
    · exact nil_distinct
    · exact ⟨List.pairwise_singleton _ _, List.pairwise_singleton _ _⟩
  | @deeper l ty' nm' f' t' u hm hb =>
    cases ofList_inj hs
    simp only [List.mem_singleton, Prod.mk.injEq, Tree.Dir.mk.injEq] at hm
    obtain ⟨_, _, _, rfl⟩ := hm
    exact h u hb

/-- the folder of the subsystem with the folders in it -/
def eDir (a b : Text) (s1 s2 s3 : List (Place Store.Node)) : Tree.Dir := .mk s1 (.ofList [(xT, a, .mk s2 (.ofList [(xC, b, .mk s3 (.ofList []))]))])

theorem eTree (con : Option Text) : ∃ s1 s2 s3, extractTree (handlers classOf xG xX xY "803".toList) xF (0 + 1 + 1 + 1) con xS (.str ['a']) = some (xIS, eDir xIT.name xIC.name s1 s2 s3) := by
  obtain ⟨s1, e1⟩ := xeS
  obtain ⟨s2, e2⟩ := xeT
  obtain ⟨s3, e3⟩ := xeC
  have k1 : handlers classOf xG xX xY "803".toList xS = some (handlerOf xG xX xY "803".toList (.file xKS)) := by unfold handlers; rw [xcS, Option.map_some]
  have k2 : handlers classOf xG xX xY "803".toList xT = some (handlerOf xG xX xY "803".toList (.file xKT)) := by unfold handlers; rw [xcT, Option.map_some]
  have k3 : handlers classOf xG xX xY "803".toList xC = some (handlerOf xG xX xY "803".toList (.inner xKC)) := by unfold handlers; rw [xcC, Option.map_some]
  have o1 : (handlerOf xG xX xY "803".toList (.file xKS)).out con xF (.str ['a']) = some (xIS, [⟨xT, ['b'], .str ['b']⟩], nodes s1) := by rw [file_out, e1, Option.map_some]
  have o2 : ∀ con, (handlerOf xG xX xY "803".toList (.file xKT)).out con xF (.str ['b']) = some (xIT, [⟨xC, ['c'], xCmd xHC⟩], nodes s2) := by intro con; rw [file_out, e2, Option.map_some]
  have o3 : ∀ con, (handlerOf xG xX xY "803".toList (.inner xKC)).out con xF (xCmd xHC) = some (xIC, [], nodes s3) := by
    intro con
    rw [xCmd, inner_out, ← xCmd, e3, Option.map_some]
  have t3 : ∀ con, extractTree (handlers classOf xG xX xY "803".toList) xF (0 + 1) con xC (xCmd xHC) = some (xIC, .mk (nodes s3) (.ofList [])) := fun con =>
    tree_step k3 (o3 con) (by rw [extractKids]) .nil
  have t2 := fun con => tree_step (F := xF) k2 (o2 con) (one_kid (o := ⟨xC, ['c'], xCmd xHC⟩) (t3 _)) (one_nodup _)
  have t1 := tree_step (F := xF) k1 o1 (one_kid (o := ⟨xT, ['b'], .str ['b']⟩) (t2 _)) (one_nodup _)
  exact ⟨_, _, _, t1⟩

theorem eExtract (rnd : Nat → Text) : ∃ src s1 s2 s3, extractProduct (pE rnd) (handlers classOf xG xX xY "803".toList) .config "803".toList xF (0 + 1 + 1 + 1) =
    some (pInfo, .mk src (.ofList [(xS, xIS.name, eDir xIT.name xIC.name s1 s2 s3)])) := by
  obtain ⟨src, h1⟩ := pRootOut rnd
  obtain ⟨s1, s2, s3, h2⟩ := eTree (V8.Root.conOut .config xF)
  refine ⟨nodes src, s1, s2, s3, ?_⟩
  unfold extractProduct
  rw [h1, Option.bind_some]
  simp only
  rw [one_kid (o := ⟨xS, ['a'], .str ['a']⟩) h2, Option.bind_some, if_pos (one_nodup _)]

theorem one_renamed {f : List (Place Store.Node)} {ty a b : Text} {d d' : Tree.Dir} (h : Renamed d d') : Renamed (.mk f (.ofList [(ty, a, d)])) (.mk f (.ofList [(ty, b, d')])) :=
  Renamed.mk (l := [⟨ty, a, b, d, d'⟩]) rfl (.refl _) (by
    intro q hq
    cases List.mem_singleton.mp hq
    exact h)

/-- another machine: the same but for the times -/
noncomputable def eDisk : Disk := { xDisk with times := fun _ => (8, 9) }

/-- a product file; its sources with the three folders renamed to `x`, `y`, `z`: both builds succeed, and the product files hold the same but for `versions` and `configinfo` -/
example (rnd rnd' : Nat → Text) (ord ord' : Text → List Nested.Entry → List Nested.Entry) (shuf shuf' : List Text → List Text) (hord : ∀ id l, (ord id l).Perm l) (hord' : ∀ id l, (ord' id l).Perm l)
    (hshuf : ∀ l, (shuf l).Perm l) (hshuf' : ∀ l, (shuf' l).Perm l) : ∃ old L src s1 s2 s3 fs fs', unwrap storedInflater (2 ^ 31) 2 1 old = .ok [L] ∧
      extractProduct (pE rnd) (handlers classOf xG xX xY "803".toList) .config "803".toList (view L) (0 + 1 + 1 + 1) = some (pInfo, .mk src (.ofList [(xS, xIS.name, eDir xIT.name xIC.name s1 s2 s3)])) ∧
      buildProduct (pE rnd) (fun v p => handlers classOf xG xX { xY with prod := p } v) ord shuf "f".toList (.mk src (.ofList [(xS, xIS.name, eDir xIT.name xIC.name s1 s2 s3)])) = some (.config, fs) ∧
      buildProduct { pE rnd with rnd := rnd' } (fun v p => handlers classOf xG xX { xY with prod := p } v) ord' shuf' "f".toList (.mk src (.ofList [(xS, ['x'], eDir ['y'] ['z'] s1 s2 s3)])) = some (.config, fs') ∧
      (∃ l, OnDisk l fs) ∧ (∃ l', OnDisk l' fs') ∧
      ∀ l l', OnDisk l fs → OnDisk l' fs' → ∀ b b', wrap xDisk l = .ok b → wrap eDisk l' = .ok b' → b.length < 2 ^ 31 → b'.length < 2 ^ 31 →
        ∃ out out', unwrap storedInflater (2 ^ 31) 2 1 b = .ok [out] ∧ unwrap storedInflater (2 ^ 31) 2 1 b' = .ok [out'] ∧ Alike [configinfoName, "versions".toList] out out' := by
  obtain ⟨old, L, h1, h2, h3⟩ := wOld
  obtain ⟨src, s1, s2, s3, hx⟩ := eExtract rnd
  rw [← h3] at hx
  have hr : Renamed (.mk src (.ofList [(xS, xIS.name, eDir xIT.name xIC.name s1 s2 s3)])) (.mk src (.ofList [(xS, ['x'], eDir ['y'] ['z'] s1 s2 s3)])) :=
    one_renamed (one_renamed (one_renamed (Renamed.mk (l := []) (l' := []) rfl (.refl _) (fun q hq => by cases hq))))
  have hu : ∀ v p, Unambiguous (handlers classOf xG xX { xY with prod := p } v) (.ofList [(xS, xIS.name, eDir xIT.name xIC.name s1 s2 s3)]) := fun v p =>
    one_unambiguous (one_unambiguous (one_unambiguous (none_unambiguous _)))
  obtain ⟨fs, fs', g1, g2, g3, g4, g5⟩ := C85_from_product metaTypes classOf xG (pE rnd) rnd' .config "803".toList ord ord' shuf shuf' xNm _ pInfo src _ _ "f".toList ['h'] ['p'] pRoot pDH
    C61_classes rfl rfl rfl rfl rfl V8.Root.C62_no_extension_type V8.Root.C62_same_version hord hord' hshuf hshuf' storedInflater xDisk eDisk tiny_ok tiny_ok xTimes (fun _ => ⟨by show 8 < 2 ^ 64; decide, by show 9 < 2 ^ 64; decide⟩)
    old L (2 ^ 31) 2 1 h1 h2 (by rw [h3]; exact pDetect rnd) hx (by rw [h3]; exact pProduct rnd _) (by rw [h3]; exact pInner rnd) hr hu
  exact ⟨old, L, src, s1, s2, s3, fs, fs', h1, hx, g1, g2, g3, g4, fun l l' hl hl' b b' hw hw' hs hs' => g5 l l' hl hl' b b' hw hw' hs hs' (2 ^ 31) 2 1 (Nat.le_refl _) (Nat.le_refl _)⟩

/-- the files of a module folder -/
def eFiles : List (Text × Bytes) := [("info".toList, [0x7B, 0x7D]), ("text".toList, [0x41])]

theorem eStored (k : Disk) (hk : k.D = xDisk.D) (t : Nat × Nat) (ht : k.times = fun _ => t) (h1 : t.1 < 2 ^ 64) (h2 : t.2 < 2 ^ 64) :
    ∃ x, Stage.storedOf k (['m'], .dir (eFiles.map (fun p => (p.1, .file p.2)))) = .ok (['m'], x) ∧ ∀ f, decompressFile storedInflater x = some f → f.length < 2 ^ 31 := by
  obtain ⟨f, hb, hl⟩ := C01_build_succeeds k.deflate (srcOf k ['m'] eFiles) (by unfold srcOf eFiles; exact fun h => by cases h) (by
    intro q hq
    obtain ⟨p, _, rfl⟩ := List.mem_map.mp hq
    rw [ht]
    exact ⟨h1, h2⟩) (by
    unfold srcOf
    rw [ht]
    show _ + 2000 < 2 ^ 31
    have : ((eFiles.map (fun p => (⟨p.1, t.1, t.2, p.2⟩ : SrcFile))).map SrcFile.cost).sum = 1635 := by
      unfold eFiles
      simp only [List.map_cons, List.map_nil, SrcFile.cost, List.sum_cons, List.sum_nil]
      decide
    rw [this]
    decide)
  refine ⟨compressFile k.D f, ?_, ?_⟩
  · unfold Stage.storedOf
    simp only [entries_of]
    simp only [buildFile] at hb
    cases hw : buildContainer fmt32 k.deflate ⟨[], 0⟩ ((srcOf k ['m'] eFiles).map SrcFile.entry) true 0 with
    | error e => rw [hw] at hb; cases hb
    | ok w =>
      rw [hw] at hb
      simp only [Except.ok.injEq] at hb
      simp only [hb]
  · intro f' hf
    rw [hk, show xDisk.D = tinyDeflater from rfl, decompress_compress tiny_ok f] at hf
    cases hf
    exact hl

/-- the module folder is stored as other bytes when the temporary files have another time -/
example : ∃ x x', Stage.storedOf xDisk (['m'], .dir (eFiles.map (fun p => (p.1, .file p.2)))) = .ok (['m'], x) ∧
    Stage.storedOf eDisk (['m'], .dir (eFiles.map (fun p => (p.1, .file p.2)))) = .ok (['m'], x') ∧ x ≠ x' := by
  obtain ⟨x, h1, h2⟩ := eStored xDisk rfl (5, 7) rfl (by decide) (by decide)
  obtain ⟨x', g1, _⟩ := eStored eDisk rfl (8, 9) rfl (by decide) (by decide)
  exact ⟨x, x', h1, g1, C85_times_stored_neg storedInflater xDisk eDisk tiny_ok rfl ['m'] eFiles (by decide) (by
    intro p hp
    unfold eFiles at hp
    rcases List.mem_cons.mp hp with rfl | hp
    · unfold GoodName NoBom; decide
    · cases List.mem_singleton.mp hp
      unfold GoodName NoBom; decide) x x' h1 g1 h2 ("text".toList, [0x41]) (by decide) (by show parseDatetime 7 ≠ parseDatetime 9; decide)⟩

end V8.Same
