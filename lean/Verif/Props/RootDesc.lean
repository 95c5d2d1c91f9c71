import Verif.Props.RootParts
/-
The description of a product, the names of its source files, the objects found in its lists.
-/
namespace V8.Root
open V8.Brace V8.Enc V8.JsonText V8.Header V8.Store V8.Tree V8.Embed
open V8.Nested hiding Env Handler
open V8.Object hiding Cls
open V8.Product (getAt setAt getAt_setAt setAt_getAt setAt_some getAt_frame setAt_setAt Options)
open V8.Misc (Cls)

theorem dget_none (ps : List (Place JT)) (n : Text) (h : n ∉ ps.map (·.1)) : dget (written ps) n = none := by
  unfold dget
  cases hf : (written ps).find? (fun p => decide (p.1 = n)) with
  | none => rfl
  | some p =>
    have h1 := List.find?_some hf
    rw [decide_eq_true_eq] at h1
    have h2 := mem_written.mp (List.mem_of_find?_eq_some hf)
    rw [h1] at h2
    exact absurd (List.mem_map.mpr ⟨_, h2, rfl⟩) h

/-! ### what is found -/

/-- what stands in the lists of a product, with the type -/
def listed (E : Nested.Env) (v : Val) (ps : List (List Nat)) : List (Text × Val) := ps.flatMap (fun p => (slotsAt v p).flatMap (listedSlot E))

theorem takeLists_listed {E : Nested.Env} {auto : Bool} : ∀ (ps : List (List Nat)) (made : List Text) (v v' : Val) (os : List Obj),
    takeLists E auto made ps v = some (v', os) → (∀ p ∈ ps, ∀ s ∈ slotsAt v p, Tidy E s) →
    (∀ p ∈ ps, getAt v (p ++ [2]) = some (.str (V8.Dec.showNat (slotsAt v p).length))) → ps.Pairwise Apart →
    os.map (fun o => (o.ty, o.orig)) = listed E v ps
  | [], made, v, v', os, h, _, _, _ => by
    rw [takeLists] at h
    cases h
    rfl
  | p :: ps, made, v, v', os, h, htidy, hcount, hpw => by
    obtain ⟨inc, inc', os1, v1, os2, hg, hd, hs, ht, rfl⟩ := takeLists_cons h
    obtain ⟨hp1, hp2⟩ := List.pairwise_cons.mp hpw
    obtain ⟨a, b, n, c, slots, slots', rfl, hc, hds, rfl⟩ := decodeFrom_some hd
    have h1 : slotsAt v p = slots := by unfold slotsAt; rw [hg]
    have hn : n = V8.Dec.showNat slots.length := by
      have := hcount p List.mem_cons_self
      rw [getAt_append, hg, h1] at this
      simpa [getAt] using this
    have hcn : c.toNat = slots.length := by
      rw [hn, V8.Dec.parse_showNat] at hc
      cases hc
      exact Int.toNat_natCast _
    have hsame : ∀ q ∈ ps, ∀ r, getAt v1 (q ++ r) = getAt v (q ++ r) := by
      intro q hq r
      rw [getAt_append, getAt_append, getAt_frame _ _ _ _ _ hs (hp1 q hq).1 (hp1 q hq).2]
    have hslots : ∀ q ∈ ps, slotsAt v1 q = slotsAt v q := by
      intro q hq
      have := hsame q hq []
      rw [List.append_nil] at this
      unfold slotsAt
      rw [this]
    have ih := takeLists_listed ps _ v1 v' os2 ht (fun q hq s hm => htidy q (List.mem_cons_of_mem _ hq) s (hslots q hq ▸ hm))
      (fun q hq => by rw [hsame q hq, hslots q hq]; exact hcount q (List.mem_cons_of_mem _ hq)) hp2
    have e1 := slots_objs _ _ _ _ _ hds (fun s hm => htidy p List.mem_cons_self s (h1 ▸ hm))
    rw [hcn, List.take_length] at e1
    rw [List.map_append, e1, ih]
    unfold listed
    rw [List.flatMap_cons, h1]
    congr 1
    exact List.flatMap_congr (fun q hq => by rw [hslots q hq])

/-! ### the description -/

def frontKeys : Cls → List Text
  | .config => ["v8unpack".toList, "file_uuid".toList, "root".toList]
  | .extension => ["configinfo".toList, "v8unpack".toList, "file_uuid".toList, "version".toList, "copyinfo".toList]
  | .processor => ["root".toList, "file_uuid".toList]

def headKeys : Cls → List Text
  | .extension => ["header".toList, "uuid".toList, "name".toList, "name2".toList, "comment".toList]
  | _ => ["uuid".toList, "name".toList, "name2".toList, "comment".toList, "header".toList]

def otherKeys : Cls → List Text
  | .config => ["version".toList, "versions".toList]
  | .extension => []
  | .processor => ["v8unpack".toList, "version".toList, "copyinfo".toList, "form1".toList]

def compatKeys (c : Cls) : List Text := (kindOf c).compat.toList.map (fun _ => "compatibility_version".toList)

/-- the entries of the description -/
def keysOf (c : Cls) : List Text :=
  frontKeys c ++ headKeys c ++ (otherKeys c ++ compatKeys c ++ partKeys (kindOf c)) ++ ["obj_version".toList]

def versionNames : Cls → List Text
  | .extension => ["version.bin".toList]
  | _ => []

/-- the files of the sources -/
def sourceNames (c : Cls) : List Text := partFiles (kindOf c) ++ versionNames c ++ [objName (kindOf c).name]

theorem keys_nodup (c : Cls) : (keysOf c).Nodup := by cases c <;> decide +kernel

theorem sources_nodup (c : Cls) : (sourceNames c).Nodup := by cases c <;> decide +kernel

theorem no_version_bin (c : Cls) (h : c ≠ .extension) : "version.bin".toList ∉ sourceNames c := by
  cases c with
  | extension => exact absurd rfl h
  | config => decide +kernel
  | processor => decide +kernel

theorem other_json (c : Cls) : ∀ t ∈ (V8.Misc.available.map (·.1)).takeWhile (fun t => decide (t ≠ (kindOf c).name)), objName t ∉ sourceNames c := by
  cases c <;> decide +kernel

theorem not_keys (c : Cls) : (c = .extension → "root".toList ∉ keysOf c) ∧ (c ≠ .extension → "configinfo".toList ∉ keysOf c) := by
  cases c <;> decide +kernel

theorem frontOut_shape {c : Cls} {tool fu : Text} {root : Val} {r : List (Place JT)} (h : frontOut c tool fu root = some r) :
    r.map (·.1) = frontKeys c ∧ ∀ n v, (n, some v) ∈ r → v.WF := by
  cases c with
  | config =>
    cases h
    refine ⟨rfl, ?_⟩
    intro n v hm
    simp only [List.mem_cons, List.not_mem_nil, or_false, Prod.mk.injEq, Option.some.injEq] at hm
    rcases hm with ⟨_, rfl⟩ | ⟨_, rfl⟩ | ⟨_, rfl⟩
    · exact str_wf _
    · exact str_wf _
    · exact jsonOf_wf _
  | extension =>
    simp only [frontOut, Option.bind_eq_some_iff, Option.map_eq_some_iff] at h
    obtain ⟨a, _, b, _, rfl⟩ := h
    refine ⟨rfl, ?_⟩
    intro n v hm
    simp only [List.mem_cons, List.not_mem_nil, or_false, Prod.mk.injEq, Option.some.injEq] at hm
    rcases hm with ⟨_, rfl⟩ | ⟨_, rfl⟩ | ⟨_, rfl⟩ | ⟨_, rfl⟩ | ⟨_, rfl⟩
    · exact jsonOf_wf _
    · exact str_wf _
    · exact str_wf _
    · exact jsonOf_wf _
    · exact jsonOf_wf _
  | processor =>
    cases h
    refine ⟨rfl, ?_⟩
    intro n v hm
    simp only [List.mem_cons, List.not_mem_nil, or_false, Prod.mk.injEq, Option.some.injEq] at hm
    rcases hm with ⟨_, rfl⟩ | ⟨_, rfl⟩
    · rw [JT.WF] <;> simp
    · exact str_wf _

theorem opt_wf (v : Option Val) : ((v.map jsonOf).getD .null).WF := by
  cases v with
  | none => exact null_wf
  | some v => exact jsonOf_wf v

theorem otherOut_shape {c : Cls} {tool u : Text} {F : Text → Option Node} {r : List (Place JT)} (h : otherOut c tool F u = some r) :
    r.map (·.1) = otherKeys c ∧ ∀ n v, (n, some v) ∈ r → v.WF := by
  cases c with
  | config =>
    simp only [otherOut, Option.bind_eq_some_iff, Option.map_eq_some_iff] at h
    obtain ⟨a, _, b, _, rfl⟩ := h
    refine ⟨rfl, ?_⟩
    intro n v hm
    simp only [List.mem_cons, List.not_mem_nil, or_false, Prod.mk.injEq, Option.some.injEq] at hm
    rcases hm with ⟨_, rfl⟩ | ⟨_, rfl⟩ <;> exact jsonOf_wf _
  | extension =>
    cases h
    exact ⟨rfl, fun _ _ hm => by cases hm⟩
  | processor =>
    simp only [otherOut, form1Out, Option.bind_eq_some_iff, Option.map_eq_some_iff] at h
    obtain ⟨a, _, b, _, f, ⟨g, _, w, _, rfl⟩, rfl⟩ := h
    refine ⟨rfl, ?_⟩
    intro n v hm
    simp only [List.cons_append, List.nil_append, List.mem_cons, List.not_mem_nil, or_false, Prod.mk.injEq, Option.some.injEq] at hm
    rcases hm with ⟨_, rfl⟩ | ⟨_, rfl⟩ | ⟨_, rfl⟩ | ⟨_, rfl⟩
    · exact str_wf _
    · exact jsonOf_wf _
    · exact jsonOf_wf _
    · exact opt_wf _

theorem compatOut_shape {c : Cls} {h : Val} {r : List (Place JT)} (hr : compatOut (kindOf c) h = some r) :
    r.map (·.1) = compatKeys c ∧ ∀ n v, (n, some v) ∈ r → v.WF := by
  unfold compatOut at hr
  unfold compatKeys
  cases hk : (kindOf c).compat with
  | none =>
    rw [hk] at hr
    cases hr
    exact ⟨rfl, fun _ _ hm => by cases hm⟩
  | some p =>
    rw [hk] at hr
    simp only [Option.map_eq_some_iff] at hr
    obtain ⟨w, _, rfl⟩ := hr
    refine ⟨rfl, ?_⟩
    intro n v hm
    rw [List.mem_singleton, Prod.mk.injEq] at hm
    cases hm.2
    exact jsonOf_wf _

theorem versionOut_shape {c : Cls} {win : Bool} {h : Val} {r : List (Place Bytes)} (hr : versionOut c win h = some r) : r.map (·.1) = versionNames c := by
  cases c with
  | config => cases hr; rfl
  | processor => cases hr; rfl
  | extension =>
    simp only [versionOut, Option.map_eq_some_iff] at hr
    obtain ⟨b, _, rfl⟩ := hr
    rfl

/-- the parts of `besideOut` -/
theorem besideOut_some {e : Env} {c : Cls} {ver : Text} {F : Text → Option Node} {root : Val} {fu u : Text} {h : Val}
    {b : List (Place JT) × List (Place JT) × List (Place Bytes)} (hb : besideOut e c ver F root fu u h = some b) :
    ∃ front other compat vb parts, frontOut c e.tool fu root = some front ∧ otherOut c e.tool F u = some other ∧
      compatOut (kindOf c) h = some compat ∧ versionOut c e.x.win h = some vb ∧ partsOut e.x.win (kindOf c) (directives c ver) F u = some parts ∧
      b = (front, other ++ compat ++ parts.1, parts.2 ++ vb) := by
  unfold besideOut at hb
  simp only [Option.bind_eq_some_iff, Option.map_eq_some_iff] at hb
  obtain ⟨front, h1, other, h2, compat, h3, vb, h4, parts, h5, rfl⟩ := hb
  exact ⟨front, other, compat, vb, parts, h1, h2, h3, h4, h5, rfl⟩

theorem headOut_shape {c : Cls} {info : Info} {h : Val} (hn : info.name2.Pairwise (fun a b => a.1 ≠ b.1)) :
    (headOut c info h).map (·.1) = headKeys c ∧ ∀ n v, (n, some v) ∈ headOut c info h → v.WF := by
  have hnames : (JT.obj (info.name2.map (fun p => (p.1, JT.str p.2)))).WF := by
    rw [JT.WF]
    exact ⟨by rw [List.pairwise_map]; exact hn, names_wf _⟩
  cases c with
  | extension =>
    refine ⟨rfl, ?_⟩
    intro n v hm
    simp only [headOut, List.mem_cons, List.not_mem_nil, or_false, Prod.mk.injEq, Option.some.injEq] at hm
    rcases hm with ⟨_, rfl⟩ | ⟨_, rfl⟩ | ⟨_, rfl⟩ | ⟨_, rfl⟩ | ⟨_, rfl⟩
    · exact jsonOf_wf _
    · exact str_wf _
    · exact str_wf _
    · exact hnames
    · exact str_wf _
  | config =>
    refine ⟨rfl, ?_⟩
    intro n v hm
    simp only [headOut, List.cons_append, List.nil_append, List.mem_cons, List.not_mem_nil, or_false, Prod.mk.injEq, Option.some.injEq] at hm
    rcases hm with ⟨_, rfl⟩ | ⟨_, rfl⟩ | ⟨_, rfl⟩ | ⟨_, rfl⟩ | ⟨_, rfl⟩
    · exact str_wf _
    · exact str_wf _
    · exact hnames
    · exact str_wf _
    · exact jsonOf_wf _
  | processor =>
    refine ⟨rfl, ?_⟩
    intro n v hm
    simp only [headOut, List.cons_append, List.nil_append, List.mem_cons, List.not_mem_nil, or_false, Prod.mk.injEq, Option.some.injEq] at hm
    rcases hm with ⟨_, rfl⟩ | ⟨_, rfl⟩ | ⟨_, rfl⟩ | ⟨_, rfl⟩ | ⟨_, rfl⟩
    · exact str_wf _
    · exact str_wf _
    · exact hnames
    · exact str_wf _
    · exact jsonOf_wf _

/-- the description can be read again, and each of its entries is found under its key -/
theorem description_read {e : Env} {c : Cls} {ver : Text} {F : Text → Option Node} {root : Val} {fu u : Text} {h t : Val} {info : Info}
    {b : List (Place JT) × List (Place JT) × List (Place Bytes)} (hb : besideOut e c ver F root fu u h = some b)
    (hn : info.name2.Pairwise (fun a b => a.1 ≠ b.1)) :
    readFile (fileOf e.x.win (.obj (written (description c ver b.1 b.2.1 info t)))) = some (.obj (written (description c ver b.1 b.2.1 info t))) ∧
      (∀ q ∈ description c ver b.1 b.2.1 info t, entry (.obj (written (description c ver b.1 b.2.1 info t))) q.1 = q.2) ∧
      (∀ n, n ∉ keysOf c → entry (.obj (written (description c ver b.1 b.2.1 info t))) n = none) ∧
      (b.2.2 ++ [(objName (kindOf c).name, some (fileOf e.x.win (.obj (written (description c ver b.1 b.2.1 info t)))))]).map (·.1) = sourceNames c := by
  obtain ⟨front, other, compat, vb, parts, h1, h2, h3, h4, h5, rfl⟩ := besideOut_some hb
  obtain ⟨a1, w1⟩ := frontOut_shape h1
  obtain ⟨a2, w2⟩ := otherOut_shape h2
  obtain ⟨a3, w3⟩ := compatOut_shape h3
  have a4 := versionOut_shape h4
  obtain ⟨a5, a6, w5⟩ := partsOut_shape h5
  obtain ⟨a7, w7⟩ := headOut_shape (c := c) (h := t) hn
  have hkeys : (description c ver front (other ++ compat ++ parts.1) info t).map (·.1) = keysOf c := by
    unfold description keysOf
    simp only [List.map_append, a1, a2, a3, a5, a7]
    rfl
  have hnd : ((description c ver front (other ++ compat ++ parts.1) info t).map (·.1)).Nodup := hkeys ▸ keys_nodup c
  refine ⟨?_, ?_, ?_, ?_⟩
  · apply C58_round_trip
    rw [JT.WF]
    refine ⟨written_keys _ hnd, wfd_written _ ?_⟩
    intro n v hm
    unfold description at hm
    simp only [List.mem_append] at hm
    rcases hm with ((hm | hm) | (hm | hm) | hm) | hm
    · exact w1 n v hm
    · exact w7 n v hm
    · exact w2 n v hm
    · exact w3 n v hm
    · exact w5 n v hm
    · rw [List.mem_singleton, Prod.mk.injEq] at hm
      cases hm.2
      exact str_wf _
  · intro q hq
    exact dget_place _ _ _ hnd hq
  · intro n hm
    exact dget_none _ _ (hkeys.symm ▸ hm)
  · unfold sourceNames
    simp only [List.map_append, a4, a6]
    rfl

/-- the parts of `rootOut` -/
theorem rootOut_some {e : Env} {c : Cls} {ver : Text} {F : Text → Option Node} {info : Info} {os : List Obj} {src : List (Place Bytes)}
    (h : rootOut e c ver F = some (info, os, src)) :
    ∃ root fu v hd h' h1 b paths t, need F (rootName c) = some root ∧ getAt root (filePath c) = some (.str fu) ∧ need F fu = some v ∧
      getAt v (kindOf c).head = some (.list hd) ∧ decodeHeader e.x.valid e.x.p false hd = .ok (info, h') ∧
      setAt v (kindOf c).head (.list h') = some h1 ∧ besideOut e c ver F root fu info.uuid h1 = some b ∧
      listPaths e.groups c h1 = some paths ∧ takeLists e.x.E e.x.auto [] paths h1 = some (t, os) ∧
      src = b.2.2 ++ [(objName (kindOf c).name, some (fileOf e.x.win (.obj (written (description c ver b.1 b.2.1 info t)))))] := by
  unfold rootOut at h
  simp only [Option.bind_eq_some_iff, Option.map_eq_some_iff] at h
  obtain ⟨root, h1, fu, ⟨fv, h2, h2'⟩, v, h3, hd, ⟨hv, h4, h4'⟩, r, h5, h1', h6, b, h7, paths, h8, t, h9, he⟩ := h
  obtain ⟨info', h'⟩ := r
  obtain ⟨t, os'⟩ := t
  simp only [Prod.mk.injEq] at he
  obtain ⟨rfl, rfl, rfl⟩ := he
  refine ⟨root, fu, v, hd, h', h1', b, paths, t, h1, ?_, h3, ?_, ?_, h6, h7, h8, h9, rfl⟩
  · cases fv with
    | str s => cases h2'; exact h2
    | none => cases h2'
    | list _ => cases h2'
  · cases hv with
    | list s => cases h4'; exact h4
    | none => cases h4'
    | str _ => cases h4'
  · cases hh : decodeHeader e.x.valid e.x.p false hd with
    | error _ => rw [hh] at h5; cases h5
    | ok q => rw [hh] at h5; cases h5; rfl

end V8.Root
