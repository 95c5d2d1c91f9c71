import Verif.Props.Whole
import Verif.Props.RootEx
import Verif.Props.StageEx
/-
C67: a product file that meets the hypotheses: the configuration of RootEx, stored by a part of DEFLATE.
-/
namespace V8.Whole
open V8.Brace V8.Enc V8.Header V8.Store V8.Tree V8.Stage V8.Zlib V8.Root
open V8.Nested hiding Env Handler
open V8.Object hiding Cls
open V8.Misc (Cls)

/-- the files of the configuration with their content -/
noncomputable def wFiles : List (Text × Bytes) :=
  [(['a'], braceFile false xDS), (['b'], braceFile false xDT), (dot ['c'] "2".toList, utf8 "Процедура Открыть()\n".toList), (dot ['a'] "77".toList, [1]),
   ("root".toList, braceFile false pRoot), ("version".toList, braceFile false pVersion), ("versions".toList, braceFile false pVersions),
   (['h'], braceFile false pDH), (dot ['p'] "6".toList, utf8 "#Область include_lib_util\nПерем А;\n#КонецОбласти\n".toList)]

noncomputable def wL : Folder := wFiles.map (fun p => (p.1, .file p.2))

theorem wNames : wFiles.map (·.1) = [['a'], ['b'], dot ['c'] "2".toList, dot ['a'] "77".toList, "root".toList, "version".toList, "versions".toList, ['h'],
    dot ['p'] "6".toList] := rfl

theorem wNodup : (wFiles.map (·.1)).Nodup := by rw [wNames]; decide +kernel

theorem view_cons (m : Text) (b : Bytes) (l : Folder) (n : Text) : view ((m, Stage.Tree.file b) :: l) n = if n = m then some (.file b) else view l n := by
  unfold view find
  rw [List.find?_cons]
  by_cases h : n = m
  · subst h
    simp only [decide_true, if_true]
    rfl
  · have h' : ¬ m = n := fun e => h e.symm
    simp only [h, h', decide_false, if_false]

theorem wView : view wL = xF := by
  funext n
  unfold wL wFiles xF pF
  simp only [List.map_cons, List.map_nil]
  rw [view_cons, view_cons, view_cons, view_cons, view_cons, view_cons, view_cons, view_cons, view_cons]
  rfl

theorem wFileOf {m : Text} {t : Stage.Tree} (h : (m, t) ∈ wL) : ∃ b, t = .file b ∧ (m, b) ∈ wFiles := by
  obtain ⟨p, hp, he⟩ := List.mem_map.mp h
  cases he
  exact ⟨_, rfl, hp⟩

theorem utf8_mark (t : Text) (c : Char) (hc : t.head? = some c) (h : (utf8 [c]).head? ≠ some 0xFF) : (utf8 t).take 4 ≠ mark := by
  intro he
  cases t with
  | nil => cases hc
  | cons a t =>
    have : a = c := Option.some.inj hc
    subst this
    rw [show a :: t = [a] ++ t from rfl, Stage.utf8_append] at he
    have h1 : (utf8 [a]) ≠ [] := by
      intro h0
      have := utf8_long [a]
      rw [h0] at this
      simp at this
    cases hu : utf8 [a] with
    | nil => exact h1 hu
    | cons x xs =>
      rw [hu] at he h
      injection he with h2
      rw [h2] at h
      exact h rfl

theorem wLOk : FolderOk wL where
  names := by
    unfold wL
    rw [List.map_map]
    exact wNodup
  good := by
    rintro ⟨m, t⟩ h
    obtain ⟨b, _, hb⟩ := wFileOf h
    have : m ∈ wFiles.map (·.1) := List.mem_map.mpr ⟨_, hb, rfl⟩
    rw [wNames] at this
    show GoodName m
    have key : ∀ m ∈ [['a'], ['b'], dot ['c'] "2".toList, dot ['a'] "77".toList, "root".toList, "version".toList, "versions".toList, ['h'],
      dot ['p'] "6".toList], m.all (fun c => decide (c ≠ Char.ofNat 0) && decide (c.toNat < 65279)) = true := by decide +kernel
    exact xGood (key m this)
  file := by
    intro m b h
    obtain ⟨b', he, hb⟩ := wFileOf h
    cases he
    simp only [wFiles, List.mem_cons, List.not_mem_nil, or_false, Prod.mk.injEq] at hb
    rcases hb with ⟨_, rfl⟩ | ⟨_, rfl⟩ | ⟨_, rfl⟩ | ⟨_, rfl⟩ | ⟨_, rfl⟩ | ⟨_, rfl⟩ | ⟨_, rfl⟩ | ⟨_, rfl⟩ | ⟨_, rfl⟩
    all_goals first
      | exact brace_mark _ _
      | exact utf8_mark _ 'П' (by decide) (by decide +kernel)
      | decide
  dir := by
    intro m s h
    obtain ⟨b', he, _⟩ := wFileOf h
    cases he
  info := by
    intro t h
    obtain ⟨b, _, hb⟩ := wFileOf h
    have : V8.Misc.configinfoName ∈ wFiles.map (·.1) := List.mem_map.mpr ⟨_, hb, rfl⟩
    rw [wNames] at this
    exact absurd this (by decide)

/-! ### the product file -/

theorem stored_files (k : Disk) (l : List (Text × Bytes)) (h : V8.Misc.configinfoName ∉ l.map (·.1)) :
    stored k (l.map (fun p => (p.1, .file p.2))) = .ok (l.map (fun p => (p.1, compressFile k.D p.2))) := by
  have h1 : ∀ l : List (Text × Bytes), mapExcept (Stage.storedOf k) (l.map (fun p => (p.1, .file p.2))) = .ok (l.map (fun p => (p.1, compressFile k.D p.2))) := by
    intro l
    induction l with
    | nil => rfl
    | cons p l ih =>
      rw [List.map_cons, List.map_cons, mapExcept, Stage.storedOf]
      simp only
      rw [ih]
  unfold stored
  rw [h1]
  simp only
  unfold signed
  rw [if_neg]
  intro ha
  rw [List.any_eq_true] at ha
  obtain ⟨p, hp, he⟩ := ha
  obtain ⟨q, hq, rfl⟩ := List.mem_map.mp hp
  exact h (List.mem_map.mpr ⟨q, hq, of_decide_eq_true he⟩)

theorem tiny_sum : ∀ l : List (Text × Bytes), ((l.map (fun p => (p.1, compressFile tinyDeflater p.2))).map (fun p => p.2.length + 4 * p.1.length + 800)).sum ≤
    (l.map (fun p => 6 * p.2.length + 4 * p.1.length + 805)).sum
  | [] => Nat.le_refl _
  | p :: l => by
    have := tiny_sum l
    have h := tiny_file p.2
    simp only [List.map_cons, List.sum_cons]
    omega

set_option maxRecDepth 20000 in
theorem wSize : (wFiles.map (fun p => 6 * p.2.length + 4 * p.1.length + 805)).sum < 100000 := by
  unfold wFiles
  decide +kernel

theorem wWrap : ∃ f, wrap xDisk wL = .ok f ∧ f.length < 2 ^ 31 := by
  refine C65_wrap_succeeds xDisk wL xTimes wLOk (by unfold wL wFiles; simp) (fun s hs => ?_)
  unfold wL at hs
  rw [stored_files xDisk wFiles (by rw [wNames]; decide)] at hs
  injection hs with hs
  subst hs
  have h1 := tiny_sum wFiles
  have h2 := wSize
  show ((wFiles.map (fun p => (p.1, compressFile tinyDeflater p.2))).map (fun p => p.2.length + 4 * p.1.length + 800)).sum + 2000 < 2 ^ 31
  generalize ((wFiles.map (fun p => (p.1, compressFile tinyDeflater p.2))).map (fun p => p.2.length + 4 * p.1.length + 800)).sum = a at *
  generalize (wFiles.map (fun p => 6 * p.2.length + 4 * p.1.length + 805)).sum = b at *
  omega

/-- there is a product file that is taken apart into a folder with these files -/
theorem wOld : ∃ old L, unwrap storedInflater (2 ^ 31) 2 1 old = .ok [L] ∧ FolderOk L ∧ view L = xF := by
  obtain ⟨f, h1, h2⟩ := wWrap
  obtain ⟨out, h3, h4, h5, _⟩ := C65_wrap_unwrap storedInflater xDisk wL f tiny_ok xTimes wLOk h1 h2 (2 ^ 31) 2 1 (Nat.le_refl _) (Nat.le_refl _)
  have hv : ∀ m, view out m = view wL m := by
    intro m
    by_cases hm : m = V8.Misc.configinfoName
    · subst hm
      have hn : V8.Misc.configinfoName ∉ wL.map (·.1) := by
        unfold wL
        rw [List.map_map]
        show V8.Misc.configinfoName ∉ wFiles.map (·.1)
        rw [wNames]; decide
      have a : view wL V8.Misc.configinfoName = none := Classical.byContradiction (fun h => hn ((view_iff _).mp h))
      have b : view out V8.Misc.configinfoName = none := Classical.byContradiction (fun h => hn (h4.mem_iff.mp ((view_iff _).mp h)))
      rw [a, b]
    · exact h5 m hm
  have hn : (out.map (·.1)).Nodup := h4.nodup_iff.mpr wLOk.names
  refine ⟨f, out, h3, ?_, by rw [← wView]; exact funext hv⟩
  have hmem : ∀ m t, (m, t) ∈ out → (m, t) ∈ wL := by
    intro m t hm
    have hm' : m ∈ wL.map (·.1) := h4.mem_iff.mp (List.mem_map.mpr ⟨_, hm, rfl⟩)
    obtain ⟨⟨m', t'⟩, hp, rfl⟩ := List.mem_map.mp hm'
    obtain ⟨b, rfl, _⟩ := wFileOf hp
    have := hv m'
    rw [view_file wLOk.names hp] at this
    have := view_inv_file this
    have e := find_of hn hm
    rw [find_of hn this] at e
    cases e
    exact hp
  exact ⟨hn, fun p hp => wLOk.good _ (hmem _ _ hp), fun m b hp => wLOk.file _ _ (hmem _ _ hp), fun m s hp => wLOk.dir _ _ (hmem _ _ hp),
    fun t hp => wLOk.info _ (hmem _ _ hp)⟩

/-- from a product file to a product file: the module of the command of the table is in the new one as it was, the file that belongs to nothing is gone -/
example (rnd : Nat → Text) (ord : Text → List Nested.Entry → List Nested.Entry) (shuf : List Text → List Text) (hord : ∀ id l, (ord id l).Perm l)
    (hshuf : ∀ l, (shuf l).Perm l) : ∃ old L dir files, unwrap storedInflater (2 ^ 31) 2 1 old = .ok [L] ∧
      extractProduct (pE rnd) (handlers classOf xG xX xY "803".toList) .config "803".toList (view L) (0 + 1 + 1 + 1) = some (pInfo, dir) ∧
      buildProduct (pE rnd) (fun v p => handlers classOf xG xX { xY with prod := p } v) ord shuf "f".toList dir = some (.config, files) ∧ (∃ l, OnDisk l files) ∧
      ∀ l, OnDisk l files → ∀ new, wrap xDisk l = .ok new → new.length < 2 ^ 31 → ∃ out, unwrap storedInflater (2 ^ 31) 2 1 new = .ok [out] ∧
        view out (dot ['c'] "2".toList) = some (.file (utf8 "Процедура Открыть()
".toList)) := by
  obtain ⟨old, L, h1, h2, h3⟩ := wOld
  obtain ⟨dir, hx⟩ := pExtract rnd
  rw [← h3] at hx
  obtain ⟨files, g1, g2, g3⟩ := C67_product_file metaTypes classOf xG (pE rnd) .config "803".toList ord shuf xNm _ pInfo dir "f".toList ['h'] ['p'] pRoot pDH
    C61_classes rfl rfl rfl rfl rfl C62_no_extension_type C62_same_version hord hshuf storedInflater xDisk tiny_ok xTimes old L (2 ^ 31) 2 1 h1 h2
    (by rw [h3]; exact pDetect rnd) hx (by rw [h3]; exact pProduct rnd _) (by rw [h3]; exact pInner rnd)
  refine ⟨old, L, dir, files, h1, hx, g1, g2, fun l hl new hnew hlen => ?_⟩
  obtain ⟨out, o1, o2, _⟩ := (g3 l hl).2 new hnew hlen (2 ^ 31) 2 1 (Nat.le_refl _) (Nat.le_refl _)
  refine ⟨out, o1, ?_⟩
  have iT : Inside classOf xX.E xF xS (.str ['a']) _ xT (.str ['b']) := .listed xcS xFa xrS rfl rfl (by rw [xlS]; exact List.mem_cons_self)
  have iC : Inside classOf xX.E xF xT (.str ['b']) _ xC (xCmd xHC) := .listed xcT xFb xrT rfl rfl (by rw [xlT]; exact List.mem_cons_self)
  have oC : own classOf xC (xCmd xHC) = [dot ['c'] "2".toList] := by unfold own; rw [xcC]; decide +kernel
  have hI : InProduct (pE rnd) .config pDH xS (.str ['a']) := ⟨_, pPaths _ (.inl rfl), by
    show _ ∈ listed xX.E (rootVal pDH) _
    rw [pListed]; exact List.mem_cons_self⟩
  rw [(o2 _ (by decide) (by decide)).1 (.inr (by
    rw [h3]
    exact ⟨xS, .str ['a'], hI, .inr ⟨_, _, _, .deeper iT iC, by rw [oC]; exact List.mem_cons_self⟩⟩)), h3]
  exact xFc

end V8.Whole
