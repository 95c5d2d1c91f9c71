import Verif.Object
import Verif.Props.Nested
import Verif.Props.Product
import Verif.Props.JsonText
import Verif.Props.Brace
import Verif.BraceCheck
/-
C59: the file of an object, byte for byte, through extraction and build.

`braceFile win d` are the bytes of a brace file with the data `d`, `braceRead` reads one.  `extract` takes the bytes of the file of an object and
gives what is recorded, the nested objects found and the two JSON files of the sources; `build` makes of the JSON files and the nested objects
delivered (`es`) the file name and the bytes that go into the container.
-/
namespace V8.Object
open V8.Brace V8.Enc V8.JsonText V8.Header V8.Nested
open V8.Product (getAt setAt getAt_setAt setAt_getAt setAt_some setAt_setAt)
open V8.Module (strEncode strDecode strDecode_strEncode)

/-! ## brace files as bytes -/

theorem utf8Sig_bom (t : Text) : utf8SigText (bom8 ++ utf8 t) = some t := by
  have : bom8 ++ utf8 t = utf8 (bom :: t) := by rw [utf8_cons, utf8_bom]
  rw [this, utf8SigText_utf8]
  rfl

/-- C59: a brace file is read back, whatever platform wrote it. -/
theorem C59_brace_file_round_trip (win : Bool) (d : List (List Val)) (hne : d ≠ []) (hd : WFFile d) : braceRead (braceFile win d) = some d := by
  unfold braceRead braceFile
  rw [utf8Sig_bom]
  have := C10_round_trip win d hne hd
  unfold writeRead io at this
  simp only [parsed, this, Except.toOption]

/-! ## trees in JSON -/

mutual
theorem valOf_jsonOf : ∀ v : Val, valOf (jsonOf v) = some v
  | .none => by rw [jsonOf, valOf]
  | .str s => by rw [jsonOf, valOf]
  | .list l => by rw [jsonOf, valOf, valsOf_jsonsOf l]; rfl
theorem valsOf_jsonsOf : ∀ l : List Val, valsOf (jsonsOf l) = some l
  | [] => by rw [jsonsOf, valsOf]
  | v :: r => by rw [jsonsOf, valsOf, valOf_jsonOf v, valsOf_jsonsOf r]; rfl
end

mutual
theorem jsonOf_wf : ∀ v : Val, (jsonOf v).WF
  | .none => by rw [jsonOf, JT.WF]; trivial; all_goals simp
  | .str s => by rw [jsonOf, JT.WF]; trivial; all_goals simp
  | .list l => by rw [jsonOf, JT.WF]; exact jsonsOf_wf l
theorem jsonsOf_wf : ∀ l : List Val, WFs (jsonsOf l)
  | [] => by rw [jsonsOf, WFs]; trivial
  | v :: r => by rw [jsonsOf, WFs]; exact ⟨jsonOf_wf v, jsonsOf_wf r⟩
end

theorem rootOf_rootVal (d : List (List Val)) : rootOf (rootVal d) = some d := by
  unfold rootVal rootOf
  induction d with
  | nil => rfl
  | cons x r ih => simp only [List.map_cons, List.mapM_cons, ih]; rfl

theorem dget_hit (k : Text) (v : JT) (r : List (Text × JT)) : dget ((k, v) :: r) k = some v := by
  simp [dget, List.find?]

theorem dget_miss (k k' : Text) (v : JT) (r : List (Text × JT)) (h : k' ≠ k) : dget ((k', v) :: r) k = dget r k := by
  simp [dget, List.find?, h]

/-- the entries a class may add to the description: other keys than the common ones, each once -/
structure ExtraOk (extra : List (Text × JT)) : Prop where
  once : extra.Pairwise (fun a b => a.1 ≠ b.1)
  wf : WFd extra
  own : ∀ q ∈ extra, q.1 ≠ "name".toList ∧ q.1 ≠ "name2".toList ∧ q.1 ≠ "comment".toList ∧ q.1 ≠ "header".toList ∧ q.1 ≠ "obj_version".toList

/-! ## names -/

theorem put_keys (d : List (Text × Text)) (k v : Text) (h : d.Pairwise (fun a b => a.1 ≠ b.1)) :
    (put d k v).Pairwise (fun a b => a.1 ≠ b.1) := by
  unfold put
  by_cases hk : d.any (fun p => decide (p.1 = k)) = true
  · rw [if_pos hk, List.pairwise_map]
    refine h.imp ?_
    intro a b hab
    by_cases ha : a.1 = k <;> by_cases hb : b.1 = k
    · exact absurd (ha.trans hb.symm) hab
    · rw [if_pos ha, if_neg hb]; exact fun e => hb e.symm
    · rw [if_neg ha, if_pos hb]; exact ha
    · rw [if_neg ha, if_neg hb]; exact hab
  · rw [if_neg hk, List.pairwise_append]
    refine ⟨h, List.pairwise_singleton _ _, ?_⟩
    intro a ha b hb e
    rw [List.mem_singleton.mp hb] at e
    exact hk (List.any_eq_true.mpr ⟨a, ha, by simpa using e⟩)

theorem readNames_keys (names : List Val) : ∀ (n i : Nat) (d d' : List (Text × Text)), d.Pairwise (fun a b => a.1 ≠ b.1) →
    readNames names n i d = some d' → d'.Pairwise (fun a b => a.1 ≠ b.1)
  | 0, _, d, d', h, hr => by rw [readNames] at hr; cases hr; exact h
  | n + 1, i, d, d', h, hr => by
    rw [readNames] at hr
    cases h1 : strAt names (i * 2 + 1) with
    | none => simp [h1] at hr
    | some k =>
      cases h2 : strAt names (i * 2 + 2) with
      | none => simp [h1, h2] at hr
      | some v =>
        simp only [h1, h2] at hr
        exact readNames_keys names n (i + 1) _ d' (put_keys d _ _ h) hr

theorem decode_names {valid : Text → Bool} {p : Text} {sep : Bool} {h h' : List Val} {info : Info}
    (hd : decodeHeader valid p sep h = .ok (info, h')) : info.name2.Pairwise (fun a b => a.1 ≠ b.1) := by
  rw [decodeHeader] at hd
  cases hl : (listAt h 1).bind (fun l => strAt l 2) with
  | none => rw [hl] at hd; cases hd
  | some u =>
    rw [hl] at hd
    simp only at hd
    by_cases hv : valid u = false
    · rw [if_pos hv] at hd; cases hd
    · rw [if_neg hv] at hd
      cases h2 : strAt h 2 with
      | none => simp [h2] at hd
      | some tok =>
        cases h3 : listAt h 3 with
        | none => simp [h2, h3] at hd
        | some names =>
          cases h4 : strAt h 4 with
          | none => simp [h2, h3, h4] at hd
          | some com =>
            rw [h2, h3, h4] at hd
            simp only at hd
            cases hn : (strAt names 0).bind V8.Dec.parseInt with
            | none => simp [hn] at hd
            | some n =>
              rw [hn] at hd
              simp only at hd
              cases hr : readNames names n.toNat 0 [] with
              | none => simp [hr] at hd
              | some d =>
                rw [hr] at hd
                have hk := readNames_keys names n.toNat 0 [] d List.Pairwise.nil hr
                simp only at hd
                cases sep with
                | false =>
                  simp only [Bool.false_eq_true, if_false, Except.ok.injEq, Prod.mk.injEq] at hd
                  rw [← hd.1]; exact hk
                | true =>
                  simp only [if_true] at hd
                  generalize hg : setUuid _ elsewhere = g at hd
                  cases g with
                  | none => cases hd
                  | some h2 =>
                    simp only [Except.ok.injEq, Prod.mk.injEq] at hd
                    rw [← hd.1]; exact hk

theorem decode_comment {valid : Text → Bool} {p : Text} {sep : Bool} {h h' : List Val} {info : Info}
    (hd : decodeHeader valid p sep h = .ok (info, h')) : ∃ tok, h[4]? = some (.str tok) := by
  rw [decodeHeader] at hd
  cases hl : (listAt h 1).bind (fun l => strAt l 2) with
  | none => rw [hl] at hd; cases hd
  | some u =>
    rw [hl] at hd
    simp only at hd
    by_cases hv : valid u = false
    · rw [if_pos hv] at hd; cases hd
    · rw [if_neg hv] at hd
      cases h2 : strAt h 2 with
      | none => simp [h2] at hd
      | some tok =>
        cases h3 : listAt h 3 with
        | none => simp [h2, h3] at hd
        | some names =>
          cases h4 : strAt h 4 with
          | none => simp [h2, h3, h4] at hd
          | some com => exact ⟨com, strAt_some.mp h4⟩

theorem names_wf (d : List (Text × Text)) : WFd (d.map (fun p => (p.1, JT.str p.2))) := by
  induction d with
  | nil => rw [List.map_nil, WFd]; trivial
  | cons a r ih =>
    rw [List.map_cons, WFd]
    refine ⟨?_, ih⟩
    rw [JT.WF]
    · trivial
    all_goals simp

theorem wfd_append (a b : List (Text × JT)) (ha : WFd a) (hb : WFd b) : WFd (a ++ b) := by
  induction a with
  | nil => exact hb
  | cons x r ih =>
    obtain ⟨k, v⟩ := x
    rw [WFd] at ha
    rw [List.cons_append, WFd]
    exact ⟨ha.1, ih ha.2⟩

theorem str_wf (s : Text) : (JT.str s).WF := by
  rw [JT.WF]
  · trivial
  all_goals simp

theorem objJson_wf (ver : Option Text) (extra : List (Text × JT)) (info : Info) (tree : Val) (he : ExtraOk extra)
    (hn : info.name2.Pairwise (fun a b => a.1 ≠ b.1)) : (objJson ver extra info tree).WF := by
  unfold objJson
  rw [JT.WF]
  have hnames : (JT.obj (info.name2.map (fun p => (p.1, JT.str p.2)))).WF := by
    rw [JT.WF]
    exact ⟨by rw [List.pairwise_map]; exact hn, names_wf _⟩
  refine ⟨?_, wfd_append _ _ (wfd_append _ _ ?_ he.wf) ?_⟩
  · rw [List.append_assoc, List.pairwise_append]
    refine ⟨?_, ?_, ?_⟩
    · simp only [List.pairwise_cons, List.mem_cons, List.not_mem_nil, or_false, forall_eq_or_imp, forall_eq, List.Pairwise.nil,
        and_true, IsEmpty.forall_iff, implies_true]
      decide
    · rw [List.pairwise_append]
      refine ⟨he.once, List.pairwise_singleton _ _, ?_⟩
      intro a ha b hb
      rw [List.mem_singleton.mp hb]
      exact (he.own a ha).2.2.2.2
    · intro a ha b hb
      have hb' : b.1 ≠ "name".toList ∧ b.1 ≠ "name2".toList ∧ b.1 ≠ "comment".toList ∧ b.1 ≠ "header".toList := by
        rcases List.mem_append.mp hb with hb | hb
        · obtain ⟨h1, h2, h3, h4, _⟩ := he.own b hb
          exact ⟨h1, h2, h3, h4⟩
        · rw [List.mem_singleton.mp hb]
          exact ⟨(by decide : "obj_version".toList ≠ _), (by decide : "obj_version".toList ≠ _),
            (by decide : "obj_version".toList ≠ _), (by decide : "obj_version".toList ≠ _)⟩
      simp only [List.mem_cons, List.not_mem_nil, or_false] at ha
      rcases ha with rfl | rfl | rfl | rfl
      · exact fun e => hb'.1 e.symm
      · exact fun e => hb'.2.1 e.symm
      · exact fun e => hb'.2.2.1 e.symm
      · exact fun e => hb'.2.2.2 e.symm
  · simp only [WFd]
    exact ⟨str_wf _, hnames, str_wf _, jsonOf_wf tree, trivial⟩
  · simp only [WFd]
    refine ⟨?_, trivial⟩
    cases ver with
    | some s => exact str_wf s
    | none => rw [verJson, JT.WF]; trivial; all_goals simp

/-- the identifiers of a class that go into the id file have distinct names and places -/
structure IdsOk (c : Cls) : Prop where
  names : (c.ids.map (·.1)).Nodup
  own : "uuid".toList ∉ c.ids.map (·.1)
  places : (c.ids.map (·.2)).Nodup

theorem takeIds_names : ∀ {r : List (Text × Nat)} {m m' : List Val} {ids : List (Text × Val)}, takeIds r m = some (ids, m') → ids.map (·.1) = r.map (·.1)
  | [], m, m', ids, h => by rw [takeIds] at h; cases h; rfl
  | (n, i) :: r, m, m', ids, h => by
    rw [takeIds] at h
    cases hi : m[i]? with
    | none => rw [hi] at h; cases h
    | some v =>
      rw [hi] at h
      simp only [Option.map_eq_some_iff] at h
      obtain ⟨q, hq, he⟩ := h
      obtain ⟨q1, q2⟩ := q
      cases he
      rw [List.map_cons, List.map_cons, takeIds_names hq]

/-- taking identifiers out and a place that is none of theirs -/
theorem takeIds_set : ∀ {r : List (Text × Nat)} {m m' : List Val} {ids : List (Text × Val)} {i : Nat} {p : Val}, i ∉ r.map (·.2) →
    takeIds r (m.set i p) = some (ids, m') → ∀ w, takeIds r (m.set i w) = some (ids, m'.set i w)
  | [], m, m', ids, i, p, _, h, w => by
    rw [takeIds] at h ⊢
    cases h
    rw [List.set_set]
  | (n, k) :: r, m, m', ids, i, p, hn, h, w => by
    rw [List.map_cons, List.mem_cons, not_or] at hn
    rw [takeIds, List.getElem?_set_ne hn.1] at h ⊢
    cases hk : m[k]? with
    | none => rw [hk] at h; cases h
    | some v =>
      rw [hk] at h
      simp only [Option.map_eq_some_iff] at h ⊢
      obtain ⟨q, hq, he⟩ := h
      obtain ⟨q1, q2⟩ := q
      cases he
      rw [List.set_comm _ _ hn.1] at hq
      refine ⟨(q1, q2.set i w), ?_, rfl⟩
      rw [List.set_comm _ _ hn.1]
      exact takeIds_set hn.2 hq w

theorem takeIds_length : ∀ {r : List (Text × Nat)} {m m' : List Val} {ids : List (Text × Val)}, takeIds r m = some (ids, m') → m'.length = m.length
  | [], m, m', ids, h => by rw [takeIds] at h; cases h; rfl
  | (n, i) :: r, m, m', ids, h => by
    rw [takeIds] at h
    cases hi : m[i]? with
    | none => rw [hi] at h; cases h
    | some v =>
      rw [hi] at h
      simp only [Option.map_eq_some_iff] at h
      obtain ⟨q, hq, he⟩ := h
      obtain ⟨q1, q2⟩ := q
      cases he
      rw [takeIds_length hq, List.length_set]

/-- the identifiers come back -/
theorem putIds_takeIds (j : JT) : ∀ {r : List (Text × Nat)} {m m' : List Val} {ids : List (Text × Val)}, (r.map (·.2)).Nodup →
    takeIds r m = some (ids, m') → (∀ q ∈ ids, treeAt j q.1 = some q.2) → putIds j r m' = some m
  | [], m, m', ids, _, h, _ => by rw [takeIds] at h; cases h; rfl
  | (n, i) :: r, m, m', ids, hn, h, hj => by
    rw [List.map_cons, List.nodup_cons] at hn
    rw [takeIds] at h
    cases hi : m[i]? with
    | none => rw [hi] at h; cases h
    | some v =>
      rw [hi] at h
      simp only [Option.map_eq_some_iff] at h
      obtain ⟨q, hq, he⟩ := h
      obtain ⟨q1, q2⟩ := q
      cases he
      have hl := takeIds_length hq
      rw [List.length_set] at hl
      have hil := (List.getElem?_eq_some_iff.mp hi).1
      have h2 := takeIds_set hn.1 hq v
      have hm : m.set i v = m := by
        obtain ⟨_, hv⟩ := List.getElem?_eq_some_iff.mp hi
        rw [← hv, List.set_getElem_self]
      rw [hm] at h2
      rw [putIds, hj (n, v) List.mem_cons_self, List.getElem?_eq_getElem (by simp only; omega)]
      simp only
      exact putIds_takeIds j hn.2 h2 (fun q hq => hj q (List.mem_cons_of_mem _ hq))

theorem idJson_wf (info : Info) (ids : List (Text × Val)) (hn : (ids.map (·.1)).Nodup) (ho : "uuid".toList ∉ ids.map (·.1)) : (idJson info ids).WF := by
  unfold idJson
  rw [JT.WF]
  refine ⟨?_, ?_⟩
  · rw [List.pairwise_cons]
    refine ⟨?_, ?_⟩
    · intro q hq e
      obtain ⟨p, hp, rfl⟩ := List.mem_map.mp hq
      exact ho (List.mem_map.mpr ⟨p, hp, e.symm⟩)
    · rw [List.pairwise_map]
      rw [List.Nodup, List.pairwise_map] at hn
      exact hn
  · rw [WFd]
    refine ⟨str_wf _, ?_⟩
    clear hn ho
    induction ids with
    | nil => rw [List.map_nil, WFd]; trivial
    | cons a r ih => rw [List.map_cons, WFd]; exact ⟨jsonOf_wf _, ih⟩

theorem textAt_id (info : Info) (ids : List (Text × Val)) : textAt (idJson info ids) "uuid".toList = some info.uuid := by
  unfold idJson textAt
  simp only [dget_hit]

theorem dget_ids : ∀ (ids : List (Text × Val)), (ids.map (·.1)).Nodup → ∀ q ∈ ids, dget (ids.map (fun p => (p.1, jsonOf p.2))) q.1 = some (jsonOf q.2)
  | [], _, q, hq => by cases hq
  | a :: r, hn, q, hq => by
    rw [List.map_cons, List.nodup_cons] at hn
    rw [List.map_cons]
    rcases List.mem_cons.mp hq with rfl | hq
    · rw [dget_hit]
    · rw [dget_miss _ _ _ _ (fun e => hn.1 (List.mem_map.mpr ⟨q, hq, e.symm⟩))]
      exact dget_ids r hn.2 q hq

theorem treeAt_id (info : Info) (ids : List (Text × Val)) (hn : (ids.map (·.1)).Nodup) (ho : "uuid".toList ∉ ids.map (·.1)) (q : Text × Val)
    (hq : q ∈ ids) : treeAt (idJson info ids) q.1 = some q.2 := by
  unfold idJson treeAt
  simp only
  rw [dget_miss _ _ _ _ (fun e => ho (List.mem_map.mpr ⟨q, hq, e.symm⟩)), dget_ids ids hn q hq, Option.bind_some, valOf_jsonOf]

theorem hideIds_names {c : Cls} (hc : IdsOk c) {ver : Option Text} {root r : Val} {ids : List (Text × Val)} (h : hideIds c ver root = some (ids, r)) :
    (ids.map (·.1)).Nodup ∧ "uuid".toList ∉ ids.map (·.1) := by
  unfold hideIds at h
  by_cases h0 : c.ids = [] ∨ v803 ver = false
  · rw [if_pos h0] at h
    cases h
    exact ⟨List.nodup_nil, by simp only [List.map_nil]; exact List.not_mem_nil⟩
  · rw [if_neg h0] at h
    cases hg : getAt root [0, 1] with
    | none => rw [hg] at h; cases h
    | some w =>
      rw [hg] at h
      cases w with
      | none => cases h
      | str _ => cases h
      | list m =>
        simp only [Option.bind_eq_some_iff, Option.map_eq_some_iff] at h
        obtain ⟨q, hq, r', _, he⟩ := h
        obtain ⟨q1, q2⟩ := q
        cases he
        rw [takeIds_names hq]
        exact ⟨hc.names, hc.own⟩

/-- the data come back from the id file -/
theorem showIds_hideIds {c : Cls} (hc : IdsOk c) {ver ver' : Option Text} (hv : c.ids = [] ∨ v803 ver' = v803 ver) {root r : Val} {ids : List (Text × Val)}
    (h : hideIds c ver root = some (ids, r)) (info : Info) : showIds c ver' (idJson info ids) r = some root := by
  have hn := hideIds_names hc h
  unfold hideIds at h
  unfold showIds
  by_cases h0 : c.ids = [] ∨ v803 ver = false
  · rw [if_pos h0] at h
    cases h
    rw [if_pos]
    rcases h0 with h0 | h0
    · exact .inl h0
    · rcases hv with hv | hv
      · exact .inl hv
      · rw [hv]; exact .inr h0
  · rw [if_neg h0] at h
    have h1 : ¬ (c.ids = [] ∨ v803 ver' = false) := by
      rw [not_or] at h0 ⊢
      rcases hv with hv | hv
      · exact absurd hv h0.1
      · rw [hv]; exact h0
    rw [if_neg h1]
    cases hg : getAt root [0, 1] with
    | none => rw [hg] at h; cases h
    | some w =>
      rw [hg] at h
      cases w with
      | none => cases h
      | str _ => cases h
      | list m =>
        simp only [Option.bind_eq_some_iff, Option.map_eq_some_iff] at h
        obtain ⟨q, hq, r', hr, he⟩ := h
        obtain ⟨q1, q2⟩ := q
        cases he
        rw [getAt_setAt _ _ _ _ hr]
        simp only
        rw [putIds_takeIds _ hc.places hq (fun q hq => treeAt_id info _ hn.1 hn.2 q hq), Option.bind_some, setAt_setAt _ _ _ _ _ hr, setAt_getAt _ _ _ hg]

theorem textAt_name (ver : Option Text) (extra : List (Text × JT)) (info : Info) (tree : Val) :
    textAt (objJson ver extra info tree) "name".toList = some info.name := by
  unfold objJson textAt
  simp only [List.cons_append, dget_hit]

theorem treeAt_header (ver : Option Text) (extra : List (Text × JT)) (info : Info) (tree : Val) :
    treeAt (objJson ver extra info tree) "header".toList = some tree := by
  unfold objJson treeAt
  simp only [List.cons_append]
  rw [dget_miss _ _ _ _ (by decide), dget_miss _ _ _ _ (by decide), dget_miss _ _ _ _ (by decide), dget_hit, Option.bind_some, valOf_jsonOf]

/-! ## the object -/

theorem extractVal_some {x : Ext} {c : Cls} {ver : Option Text} {extra : List (Text × JT)} {root : Val} {info : Info} {os : List Obj} {s : Src}
    (h : extractVal x c ver extra root = some (info, os, s)) :
    ∃ hd h' r1 r2, getAt root c.path = some (.list hd) ∧ decodeHeader x.valid x.p true hd = .ok (info, h') ∧
      setAt root c.path (.list h') = some r1 ∧ takeIncludes x c r1 = some (r2, os) ∧ ∃ ids r3, hideIds c ver r2 = some (ids, r3) ∧
      s = ⟨fileOf x.win (idJson info ids), fileOf x.win (objJson ver extra info r3)⟩ := by
  unfold extractVal at h
  cases hg : getAt root c.path with
  | none => rw [hg] at h; cases h
  | some v =>
    rw [hg] at h
    cases v with
    | none => cases h
    | str _ => cases h
    | list hd =>
      simp only at h
      cases hh : decodeHeader x.valid x.p true hd with
      | error e => rw [hh] at h; cases h
      | ok q =>
        obtain ⟨i, h'⟩ := q
        rw [hh] at h
        simp only at h
        cases hs : setAt root c.path (.list h') with
        | none => rw [hs] at h; cases h
        | some r1 =>
          rw [hs, Option.bind_some] at h
          cases ht : takeIncludes x c r1 with
          | none => rw [ht] at h; cases h
          | some r =>
            obtain ⟨r2, os'⟩ := r
            rw [ht] at h
            simp only [Option.bind_some, Option.map_eq_some_iff] at h
            obtain ⟨q, hq, he⟩ := h
            obtain ⟨ids, r3⟩ := q
            cases he
            exact ⟨hd, h', r1, r2, rfl, hh, hs, ht, ids, r3, hq, rfl⟩

theorem extract_some {x : Ext} {c : Cls} {ver : Option Text} {extra : List (Text × JT)} {b : Bytes} {info : Info} {os : List Obj} {s : Src}
    (h : extract x c ver extra b = some (info, os, s)) :
    ∃ d hd h' r1 r2, braceRead b = some d ∧ getAt (rootVal d) c.path = some (.list hd) ∧ decodeHeader x.valid x.p true hd = .ok (info, h') ∧
      setAt (rootVal d) c.path (.list h') = some r1 ∧ takeIncludes x c r1 = some (r2, os) ∧ ∃ ids r3, hideIds c ver r2 = some (ids, r3) ∧
      s = ⟨fileOf x.win (idJson info ids), fileOf x.win (objJson ver extra info r3)⟩ := by
  unfold extract at h
  cases hb : braceRead b with
  | none => rw [hb] at h; cases h
  | some d =>
    rw [hb, Option.bind_some] at h
    obtain ⟨hd, h', r1, r2, h1, h2, h3, h4, h5⟩ := extractVal_some h
    exact ⟨d, hd, h', r1, r2, rfl, h1, h2, h3, h4, h5⟩

/-- the build writes no version into the comment of the object with the header `h`: no version is given, or the comment has no mark for it (C55) -/
def Unstamped (prod : Text) (c : Cls) (h : List Val) : Prop :=
  c.stamp = true → prod = [] ∨ ∀ tok, h[4]? = some (.str tok) → ¬ "ver:".toList <:+: strDecode tok

theorem stampIn_calm {y : Bld} {c : Cls} {root : Val} {h : List Val} (hg : getAt root c.path = some (.list h)) (hc : Unstamped y.prod c h)
    (h4 : ∃ tok, h[4]? = some (.str tok)) : stampIn y c root = some root := by
  unfold stampIn
  by_cases hs : c.stamp = true
  · rw [if_pos hs]
    obtain ⟨tok, h4⟩ := h4
    have hg4 : getAt root (c.path ++ [4]) = some (.str tok) := by
      rw [V8.Product.getAt_append, hg]
      simp only [Option.bind_some, getAt, h4]
    refine V8.Product.C55_comment_kept _ _ _ _ tok hg4 ?_
    rcases hc hs with h | h
    · exact .inr h
    · exact .inl (h tok h4)
  · rw [if_neg hs]

/-- the build, once the lists are restored -/
theorem build_of (x : Ext) (y : Bld) (c : Cls) (ver : Option Text) (extra : List (Text × JT)) (es : List Entry) (root : Val)
    (hd h' : List Val) (info : Info) (r1 r2 r3 : Val) (ids : List (Text × Val)) (he : ExtraOk extra) (hc : IdsOk c)
    (hv : c.ids = [] ∨ v803 y.ver = v803 ver) (hid : hideIds c ver r2 = some (ids, r3)) (hcalm : Unstamped y.prod c hd)
    (hg : getAt root c.path = some (.list hd)) (hh : decodeHeader x.valid x.p true hd = .ok (info, h'))
    (hs : setAt root c.path (.list h') = some r1) (hp : putIncludes y c es r2 = some r1)
    (henc : encodeHeader y.p y.parent info h' = some hd) :
    buildVal y c es ⟨fileOf x.win (idJson info ids), fileOf x.win (objJson ver extra info r3)⟩ = some (info.uuid, info.name, root) := by
  unfold buildVal
  have hn := hideIds_names hc hid
  rw [C58_round_trip _ _ (idJson_wf info ids hn.1 hn.2), C58_round_trip _ _ (objJson_wf ver extra info r3 he (decode_names hh))]
  simp only [Option.bind_some, textAt_id, textAt_name, treeAt_header]
  rw [showIds_hideIds hc hv hid info]
  have e : encodeHeader y.p y.parent ⟨info.uuid, info.name, [], []⟩ h' = some hd := by rw [← henc]; rfl
  have e2 : setAt r1 c.path (.list hd) = some root := by
    rw [setAt_setAt _ _ _ _ _ hs, setAt_getAt _ _ _ hg]
  rw [Option.bind_some, hp]
  simp only [Option.bind_some, getAt_setAt _ _ _ _ hs, e, e2]
  rw [stampIn_calm hg hcalm (decode_comment hh)]
  rfl

/-- when the header comes back (C33): the name is in quotes, and with a prefix the object of the first level has it and any other has not -/
def PrefixOk (p parent : Text) (h : List Val) : Prop :=
  ∃ name, h[2]? = some (.str (strEncode name)) ∧ (if '/' ∉ parent ∧ native h then p <+: name else p = [] ∨ ¬ p <+: name)

/-- the header list of an object of the class, in the data of its file -/
def headerOf (c : Cls) (d : List (List Val)) : List Val := match getAt (rootVal d) c.path with
  | some (.list h) => h
  | _ => []

/-- the lists of nested objects in the data of a file -/
def slotsOf (d : List (List Val)) : List Val := (d.headD []).drop 3

theorem slots_kept (c : Cls) (d : List (List Val)) (w : Val) (r1 : Val) (inc : List Val) (hs : setAt (rootVal d) c.path w = some r1)
    (hg : getAt r1 [0] = some (.list inc)) : inc.drop 3 = slotsOf d := by
  unfold Cls.path rootVal at hs
  cases d with
  | nil => simp [setAt] at hs
  | cons l r =>
    rw [setAt] at hs
    simp only [List.map_cons, List.getElem?_cons_zero, List.set_cons_zero] at hs
    cases h2 : setAt (.list l) (1 :: c.rest) w with
    | none => rw [h2] at hs; cases hs
    | some v =>
      rw [h2] at hs
      cases hs
      rw [getAt] at hg
      simp only [List.getElem?_cons_zero, getAt, Option.some.injEq] at hg
      subst hg
      rw [setAt] at h2
      cases h3 : l[1]? with
      | none => rw [h3] at h2; cases h2
      | some z =>
        rw [h3] at h2
        cases h4 : setAt z c.rest w with
        | none => simp [h4] at h2
        | some z' =>
          simp only [h4, Option.map_some, Option.some.injEq, Val.list.injEq] at h2
          subst h2
          unfold slotsOf
          rw [List.headD_cons, List.drop_set, if_pos (by omega)]

/-- the build, if the lists of the class are restored -/
theorem rebuiltVal (x : Ext) (y : Bld) (c : Cls) (ver : Option Text) (extra : List (Text × JT)) (b : Bytes) (d : List (List Val))
    (info : Info) (os : List Obj) (s : Src) (es : List Entry)
    (hx : extract x c ver extra b = some (info, os, s)) (hb : braceRead b = some d) (he : ExtraOk extra)
    (hc : IdsOk c) (hv : c.ids = [] ∨ v803 y.ver = v803 ver) (hst : Unstamped y.prod c (headerOf c d))
    (hp : y.p = x.p) (hpre : PrefixOk x.p y.parent (headerOf c d))
    (hl : c.includes = true → ∀ inc inc' : List Val, inc.drop 3 = slotsOf d → decodeInclude x.E x.auto inc = some (inc', os) →
      buildInclude y.E false y.auto es inc' = some inc) :
    buildVal y c es s = some (info.uuid, info.name, rootVal d) := by
  obtain ⟨d', hd, h', r1, r2, hb', hg, hh, hs, ht, ids, r3, hid, rfl⟩ := extract_some hx
  rw [hb] at hb'
  cases hb'
  have hhd : headerOf c d = hd := by unfold headerOf; rw [hg]
  rw [hhd] at hpre hst
  obtain ⟨name, hn, hpre⟩ := hpre
  have henc : encodeHeader y.p y.parent info h' = some hd := by
    rw [hp]
    exact (C33_rebuilt_iff_partial x.valid x.p y.parent name hd h' info hh hn).mpr hpre
  refine build_of x y c ver extra es (rootVal d) hd h' info r1 r2 r3 ids he hc hv hid hst hg hh hs ?_ henc
  unfold takeIncludes at ht
  unfold putIncludes
  by_cases hci : c.includes = true
  · rw [if_pos hci] at ht ⊢
    cases hi : getAt r1 [0] with
    | none => rw [hi] at ht; cases ht
    | some v =>
      rw [hi] at ht
      cases v with
      | none => cases ht
      | str _ => cases ht
      | list inc =>
        simp only at ht
        cases hdi : decodeInclude x.E x.auto inc with
        | none => rw [hdi] at ht; cases ht
        | some q =>
          obtain ⟨inc', os'⟩ := q
          rw [hdi, Option.bind_some] at ht
          cases hset : setAt r1 [0] (.list inc') with
          | none => rw [hset] at ht; cases ht
          | some r2' =>
            rw [hset] at ht
            cases ht
            have hbi := hl hci inc inc' (slots_kept c d _ r1 inc hs hi) hdi
            rw [getAt_setAt _ _ _ _ hset]
            simp only
            rw [hbi, Option.bind_some, setAt_setAt _ _ _ _ _ hset, setAt_getAt _ _ _ hi]
  · rw [if_neg hci] at ht ⊢
    cases ht
    rfl

theorem rebuilt (x : Ext) (y : Bld) (c : Cls) (ver : Option Text) (extra : List (Text × JT)) (b : Bytes) (d : List (List Val))
    (info : Info) (os : List Obj) (s : Src) (es : List Entry)
    (hx : extract x c ver extra b = some (info, os, s)) (hb : braceRead b = some d) (he : ExtraOk extra)
    (hc : IdsOk c) (hv : c.ids = [] ∨ v803 y.ver = v803 ver) (hst : Unstamped y.prod c (headerOf c d))
    (hp : y.p = x.p) (hpre : PrefixOk x.p y.parent (headerOf c d))
    (hl : c.includes = true → ∀ inc inc' : List Val, inc.drop 3 = slotsOf d → decodeInclude x.E x.auto inc = some (inc', os) →
      buildInclude y.E false y.auto es inc' = some inc) :
    build y c es s = some (info.uuid, braceFile y.win d) := by
  unfold build
  rw [rebuiltVal x y c ver extra b d info os s es hx hb he hc hv hst hp hpre hl]
  simp only [Option.bind_some, rootOf_rootVal, Option.map_some]

/-- C59.  The file of any object that extraction can take apart, whatever the platform of the extraction, the name, the languages, the comment
and the nested objects: if each nested object delivers what stood in the list, and the prefix is the one of the object, the build writes the file
with the data that were read, under the name of the object. -/
theorem C59_object_rebuilt (x : Ext) (y : Bld) (c : Cls) (ver : Option Text) (extra : List (Text × JT)) (b : Bytes) (d : List (List Val))
    (info : Info) (os : List Obj) (s : Src) (es : List Entry)
    (hx : extract x c ver extra b = some (info, os, s)) (hb : braceRead b = some d) (he : ExtraOk extra)
    (hauto : x.auto = false) (hE : y.E = x.E) (hc : IdsOk c) (hv : c.ids = [] ∨ v803 y.ver = v803 ver)
    (hst : Unstamped y.prod c (headerOf c d)) (hp : y.p = x.p) (hpre : PrefixOk x.p y.parent (headerOf c d))
    (hdel : Delivers x.E es os) (hgap : ∀ v ∈ slotsOf d, NoGap v) :
    build y c es s = some (info.uuid, braceFile y.win d) := by
  refine rebuilt x y c ver extra b d info os s es hx hb he hc hv hst hp hpre ?_
  intro _ inc inc' hs hdi
  rw [hauto] at hdi
  rw [hE]
  exact C57_lists_round_trip x.E inc inc' os es hdi hdel (by rw [hs]; exact hgap) y.auto

/-- C59 with the option auto_include on both sides: the same, if the lists of the file are in the order of the names (`nm`). -/
theorem C59_object_rebuilt_auto (x : Ext) (y : Bld) (c : Cls) (ver : Option Text) (extra : List (Text × JT)) (b : Bytes) (d : List (List Val))
    (info : Info) (os : List Obj) (s : Src) (es : List Entry) (nm : Val → Text)
    (hx : extract x c ver extra b = some (info, os, s)) (hb : braceRead b = some d) (he : ExtraOk extra)
    (hauto : x.auto = true) (hauto' : y.auto = true) (hE : y.E = x.E) (hc : IdsOk c) (hv : c.ids = [] ∨ v803 y.ver = v803 ver)
    (hst : Unstamped y.prod c (headerOf c d)) (hp : y.p = x.p) (hpre : PrefixOk x.p y.parent (headerOf c d))
    (ht : ∀ v ∈ slotsOf d, Tidy x.E v) (ho : ∀ v ∈ slotsOf d, NameOrder nm v)
    (hu : ∀ u ty, x.E.nameOf u = some ty → x.E.uuidOf ty = some u) (hr : ∀ e ∈ es, x.E.handler e.ty ≠ .missing)
    (hnm : ∀ e ∈ es, e.nm = nm e.data) (hne : es ≠ [])
    (hall : ∀ ty, ((ofType ty es).map Entry.data).Perm ((objsOf ty os).map Obj.orig)) :
    build y c es s = some (info.uuid, braceFile y.win d) := by
  refine rebuilt x y c ver extra b d info os s es hx hb he hc hv hst hp hpre ?_
  intro _ inc inc' hs hdi
  rw [hauto] at hdi
  rw [hE, hauto']
  exact C57_automatic_lists_partial x.E inc inc' os es nm false hdi (by rw [hs]; exact ht) (by rw [hs]; exact ho) hu hr hnm hne hall

/-- C59, byte for byte: a file in the layout of the serializer comes back unchanged when it is built on the platform it came from, wherever
it was extracted. -/
theorem C59_object_bytes (x : Ext) (y : Bld) (c : Cls) (ver : Option Text) (extra : List (Text × JT)) (d : List (List Val))
    (info : Info) (os : List Obj) (s : Src) (es : List Entry) (hne : d ≠ []) (hd : WFFile d)
    (hx : extract x c ver extra (braceFile y.win d) = some (info, os, s)) (he : ExtraOk extra)
    (hauto : x.auto = false) (hE : y.E = x.E) (hc : IdsOk c) (hv : c.ids = [] ∨ v803 y.ver = v803 ver)
    (hst : Unstamped y.prod c (headerOf c d)) (hp : y.p = x.p) (hpre : PrefixOk x.p y.parent (headerOf c d))
    (hdel : Delivers x.E es os) (hgap : ∀ v ∈ slotsOf d, NoGap v) :
    build y c es s = some (info.uuid, braceFile y.win d) :=
  C59_object_rebuilt x y c ver extra _ d info os s es hx (C59_brace_file_round_trip y.win d hne hd) he hauto hE hc hv hst hp hpre hdel hgap

/-! ## an example: an object with the lists of `Nested.exInc` -/

theorem extract_of (x : Ext) (c : Cls) (ver : Option Text) (extra : List (Text × JT)) (b : Bytes) (d : List (List Val)) (hd h' : List Val) (info : Info)
    (r1 r2 : Val) (os : List Obj) (hb : braceRead b = some d) (hg : getAt (rootVal d) c.path = some (.list hd))
    (hh : decodeHeader x.valid x.p true hd = .ok (info, h')) (hs : setAt (rootVal d) c.path (.list h') = some r1)
    (ht : takeIncludes x c r1 = some (r2, os)) (hc : c.ids = [] ∨ v803 ver = false) :
    extract x c ver extra b = some (info, os, ⟨fileOf x.win (idJson info []), fileOf x.win (objJson ver extra info r2)⟩) := by
  have hid : hideIds c ver r2 = some ([], r2) := by unfold hideIds; rw [if_pos hc]
  unfold extract extractVal
  simp only [hb, Option.bind_some, hg, hh, hs, ht, hid, Option.map_some]

def exHead : List Val :=
  [.str ['0'], .list [.str ['1'], .str ['0'], .str "0b1".toList], .str "\"ОО_Склады\"".toList,
    .list [.str ['1'], .str "\"ru\"".toList, .str "\"Склады\"".toList], .str "\"\"".toList, .str ['0']]

def exD : List (List Val) :=
  [[.str ['7'], .list [.str ['5'], .list exHead], .str ['4'],
   .list [.str ['f'], .str ['2'], .str ['u', '1'], .str ['u', '2']],
   .list [.str ['c'], .str ['1'], .list [.str ['k', '1'], .str ['d']]],
   .list [.str ['a'], .str ['1'], .list [.str ['z']]],
   .list [.str ['q'], .str ['1'], .str ['?']]]]

def exC : Cls := { rest := [1], includes := true }

theorem exC_ids : IdsOk exC := ⟨List.nodup_nil, List.not_mem_nil, List.nodup_nil⟩

def exX (auto : Bool) : Ext := { E := exE, auto := auto, valid := fun _ => true, p := "ОО_".toList, win := true }
def exY (auto : Bool) : Bld := ⟨exE, auto, "ОО_".toList, "Configuration".toList, false, none, []⟩

def exHead' : List Val :=
  [.str ['0'], .list [.str ['1'], .str ['0'], .str elsewhere], .str "\"Склады\"".toList,
    .list [.str ['1'], .str "\"ru\"".toList, .str "\"Склады\"".toList], .str "\"\"".toList, .str ['0']]

def exInfo : Info := ⟨"0b1".toList, "Склады".toList, [("ru".toList, "Склады".toList)], []⟩

theorem exD_wf : WFFile exD := fileB_ok exD (by decide +kernel)

/-- the example is taken apart: three nested objects -/
theorem ex_extract (auto win : Bool) : ∃ s, extract (exX auto) exC "803".toList [] (braceFile win exD) = some (exInfo, exObjs, s) := by
  have hb := C59_brace_file_round_trip win exD (by decide) exD_wf
  cases auto with
  | false =>
    exact ⟨_, extract_of (exX false) exC _ _ _ exD exHead exHead' exInfo
      (.list [.list ((exD.headD []).set 1 (.list [.str ['5'], .list exHead']))])
      (.list [.list (.str ['7'] :: .list [.str ['5'], .list exHead'] :: exOut.drop 2)]) exObjs hb (by decide +kernel)
      (by decide +kernel) (by decide +kernel) (by decide +kernel) (.inl rfl)⟩
  | true =>
    exact ⟨_, extract_of (exX true) exC _ _ _ exD exHead exHead' exInfo
      (.list [.list ((exD.headD []).set 1 (.list [.str ['5'], .list exHead']))])
      (.list [.list (.str ['7'] :: .list [.str ['5'], .list exHead'] :: exAuto.drop 2)]) exObjs hb (by decide +kernel)
      (by decide +kernel) (by decide +kernel) (by decide +kernel) (.inl rfl)⟩

theorem ex_prefix : PrefixOk "ОО_".toList "Configuration".toList (headerOf exC exD) := by
  refine ⟨"ОО_Склады".toList, by decide +kernel, ?_⟩
  rw [if_pos (by decide +kernel)]
  exact ⟨"Склады".toList, by decide⟩

theorem ex_extra : ExtraOk [] := ⟨List.Pairwise.nil, by rw [WFd]; trivial, fun _ h => by cases h⟩

/-- from bytes to bytes: extracted on Windows, built on Unix -/
example : ∃ info os s, extract (exX false) exC "803".toList [] (braceFile false exD) = some (info, os, s) ∧
    build (exY false) exC exEntries s = some ("0b1".toList, braceFile false exD) := by
  obtain ⟨s, h⟩ := ex_extract false false
  exact ⟨_, _, s, h, C59_object_bytes (exX false) (exY false) exC _ [] exD exInfo exObjs s exEntries (by decide) exD_wf h ex_extra rfl rfl exC_ids (.inl rfl)
    (fun h => by cases h) rfl ex_prefix ex_delivers (by decide +kernel)⟩

example : ∃ info os s, extract (exX true) exC "803".toList [] (braceFile true exD) = some (info, os, s) ∧
    build (exY true) exC exEntries s = some ("0b1".toList, braceFile false exD) := by
  obtain ⟨s, h⟩ := ex_extract true true
  exact ⟨_, _, s, h, C59_object_rebuilt_auto (exX true) (exY true) exC _ [] _ exD exInfo exObjs s exEntries exNm h
    (C59_brace_file_round_trip true exD (by decide) exD_wf) ex_extra rfl rfl rfl exC_ids (.inl rfl) (fun h => by cases h) rfl
    ex_prefix ex_tidy ex_order ex_uuid (by decide +kernel) (by decide +kernel) (by decide +kernel) ex_hall⟩

end V8.Object
