import Verif.FormWhole
/-
Elements of include areas: the links of an element to an attribute or a command are renewed by name when the form is built.
-/
namespace V8.Form
open V8.Brace V8.Dec V8.Module

theorem dictGet_some {α β : Type} [DecidableEq α] (d : List (α × β)) (k : α) (v : β) (h : dictGet d k = some v) : (k, v) ∈ d := by
  rw [dictGet] at h
  cases hf : d.reverse.find? (fun e => decide (e.1 = k)) with
  | none => rw [hf] at h; cases h
  | some e =>
    rw [hf] at h
    cases h
    have h1 : e.1 = k := by simpa using List.find?_some hf
    have h2 := List.mem_reverse.mp (List.mem_of_find?_eq_some hf)
    rw [← h1]
    exact h2

/-- a link of an element to an attribute: the number of levels and, for every level, a list with the identifier -/
def LinkOk (link : Val) : Prop := ∃ (c : Val) (ids : List Val), link = .list (c :: ids.map (fun a => .list [a])) ∧ ∀ a ∈ ids, truthy a = true

theorem set_same (l : List Val) (i : Nat) (v : Val) (h : l[i]? = some v) : l.set i v = l := by
  rw [List.getElem?_eq_some_iff] at h
  obtain ⟨h1, h2⟩ := h
  rw [← h2]
  exact List.set_getElem_self h1

theorem nonEmpty_some (t : Option Text) (p : Text) (h : nonEmpty t = some p) : t = some p := by
  cases t with
  | none => cases h
  | some s => cases s with
    | nil => cases h
    | cons => exact h

theorem rename_same (k : Kind) (name : Text) (raw : List Val) (hname : elemName k raw = some name)
    (hq : ∀ i tok, calcOffset raw k.name 0 = some i → raw[i]? = some (.str tok) → strEncode (strDecode tok) = tok) :
    rename k name raw = some raw := by
  rw [elemName] at hname
  rw [rename]
  cases ho : calcOffset raw k.name 0 with
  | none => rw [ho] at hname; cases hname
  | some i =>
    rw [ho] at hname
    simp only at hname ⊢
    cases hr : raw[i]? with
    | none => rw [hr] at hname; cases hname
    | some v =>
      rw [hr] at hname
      cases v with
      | none => cases hname
      | list _ => cases hname
      | str tok =>
        simp only at hname
        by_cases ht : tok = []
        · rw [if_pos ht] at hname; cases hname
        · rw [if_neg ht] at hname
          cases hname
          rw [hq i tok ho hr]
          have hil : i < raw.length := by rw [List.getElem?_eq_some_iff] at hr; exact hr.1
          rw [if_pos hil, set_same raw i _ hr]

theorem propName_one (P : PropsById) (a c : Val) (r : List Val) (p : Text)
    (h : propName P 1 (c :: .list [a] :: r) = some (some p)) : ∃ kids, dictGet P a = some (p, kids) := by
  rw [propName] at h
  simp only [List.getElem?_cons_succ, List.getElem?_cons_zero, Option.bind_some] at h
  have hi : idx (.list [a]) 0 = some a := rfl
  rw [hi] at h
  simp only at h
  by_cases hh : hashable a = false
  · rw [if_pos hh] at h; cases h
  · rw [if_neg hh] at h
    cases hd : dictGet P a with
    | none => rw [hd] at h; cases h
    | some q => obtain ⟨nm, kids⟩ := q; rw [hd] at h; simp only [if_true] at h; cases h; exact ⟨kids, rfl⟩

theorem propName_two (P : PropsById) (a b c : Val) (r : List Val) (p : Text)
    (h : propName P 2 (c :: .list [a] :: .list [b] :: r) = some (some p)) :
    ∃ nm kids nm2, dictGet P a = some (nm, kids) ∧ dictGet kids b = some nm2 ∧ p = nm ++ '.' :: nm2 := by
  rw [propName] at h
  simp only [List.getElem?_cons_succ, List.getElem?_cons_zero, Option.bind_some] at h
  have hi : idx (.list [a]) 0 = some a := rfl
  have hj : idx (.list [b]) 0 = some b := rfl
  rw [hi] at h
  simp only at h
  by_cases hh : hashable a = false
  · rw [if_pos hh] at h; cases h
  · rw [if_neg hh] at h
    cases hd : dictGet P a with
    | none => rw [hd] at h; cases h
    | some q =>
      obtain ⟨nm, kids⟩ := q
      rw [hd] at h
      simp only at h
      rw [if_neg (by decide), hj] at h
      simp only at h
      by_cases hh2 : hashable b = false
      · rw [if_pos hh2] at h; cases h
      · rw [if_neg hh2] at h
        cases hd2 : dictGet kids b with
        | none => rw [hd2] at h; cases h
        | some nm2 => rw [hd2] at h; simp only [if_true] at h; cases h; exact ⟨nm, kids, nm2, rfl, hd2, rfl⟩

theorem propName_more (P : PropsById) (n : Nat) (ls : List Val) (p : Text) (hn : 3 ≤ n) : propName P n ls ≠ some (some p) := by
  intro h
  rw [propName] at h
  cases h1 : (ls[1]?).bind (idx · 0) with
  | none => rw [h1] at h; cases h
  | some a =>
    rw [h1] at h
    simp only at h
    by_cases hh : hashable a = false
    · rw [if_pos hh] at h; cases h
    · rw [if_neg hh] at h
      cases hd : dictGet P a with
      | none => rw [hd] at h; cases h
      | some q =>
        obtain ⟨nm, kids⟩ := q
        rw [hd] at h
        simp only at h
        rw [if_neg (by omega)] at h
        cases h2 : (ls[2]?).bind (idx · 0) with
        | none => rw [h2] at h; cases h
        | some b =>
          rw [h2] at h
          simp only at h
          by_cases hh2 : hashable b = false
          · rw [if_pos hh2] at h; cases h
          · rw [if_neg hh2] at h
            cases hd2 : dictGet kids b with
            | none => rw [hd2] at h; cases h
            | some nm2 =>
              rw [hd2] at h
              simp only at h
              rw [if_neg (by omega)] at h
              cases h3 : (ls[3]?).bind (idx · 0) with
              | none => rw [h3] at h; cases h
              | some c =>
                rw [h3] at h
                simp only at h
                by_cases hh3 : hashable c = false
                · rw [if_pos hh3] at h; cases h
                · rw [if_neg hh3] at h; cases h

theorem propsById_mem (props : Option (List PropRec)) (P0 : PropsById) (h : propsById props = some P0) (a : Val) (nm : Text)
    (kids : List (Val × Text)) (hd : dictGet P0 a = some (nm, kids)) :
    ∃ l r, props = some l ∧ r ∈ l ∧ r.id = a ∧ r.name = nm ∧ kids = r.child.map (fun c => (c.id, c.name)) := by
  cases props with
  | none =>
    cases h
    have := dictGet_some _ _ _ hd
    cases this
  | some l =>
    rw [propsById] at h
    split at h
    · cases h
      have := dictGet_some _ _ _ hd
      rw [List.mem_map] at this
      obtain ⟨r, hr, he⟩ := this
      cases he
      exact ⟨l, r, rfl, hr, rfl, rfl, rfl⟩
    · cases h

theorem propsByName_one (l : List PropRec) (r : PropRec) (hr : r ∈ l) : (r.name, PropId.one r.id) ∈ propsByName (some l) := by
  show _ ∈ l.flatMap _
  rw [List.mem_flatMap]
  exact ⟨r, hr, List.mem_cons_self⟩

theorem propsByName_two (l : List PropRec) (r : PropRec) (hr : r ∈ l) (c : Child) (hc : c ∈ r.child) :
    (r.name ++ '.' :: c.name, PropId.two r.id c.id) ∈ propsByName (some l) := by
  show _ ∈ l.flatMap _
  rw [List.mem_flatMap]
  exact ⟨r, hr, List.mem_cons_of_mem _ (List.mem_map.mpr ⟨c, hc, rfl⟩)⟩

theorem relinkProp_same (props : Option (List PropRec)) (P0 : PropsById) (hP0 : propsById props = some P0)
    (hnd : ((propsByName props).map (·.1)).Nodup) (k : Kind) (prop : Option Text) (raw : List Val) (hprop : elemProp P0 k raw = some prop)
    (hl : ∀ cs i link, k.prop = some cs → calcOffset raw cs 0 = some i → raw[i]? = some link → truthy link = true → LinkOk link) :
    relinkProp (propsByName props) k prop raw = some raw := by
  cases prop with
  | none => cases hk : k.prop <;> rw [relinkProp] <;> intro _ _ h <;> cases h
  | some p =>
    cases hk : k.prop with
    | none => rw [relinkProp.eq_def]; simp only [hk]
    | some cs =>
      rw [elemProp, hk] at hprop
      simp only at hprop
      cases ho : calcOffset raw cs 0 with
      | none => rw [ho] at hprop; cases hprop
      | some i =>
        rw [ho] at hprop
        simp only at hprop
        cases hr : raw[i]? with
        | none => rw [hr] at hprop; cases hprop
        | some link =>
          rw [hr] at hprop
          simp only at hprop
          rw [relinkProp.eq_def]
          simp only [hk, ho, hr]
          by_cases ht : truthy link = false
          · rw [if_pos ht]
          · rw [if_neg ht] at hprop ⊢
            obtain ⟨c, ids, rfl, htr⟩ := hl cs i link hk ho hr (by simpa using ht)
            simp only [seq] at hprop
            have hc0 : countAt (c :: ids.map (fun a => Val.list [a])) 0 = count c := rfl
            have hi0 : (idx (.list (c :: ids.map (fun a => Val.list [a]))) 0).bind count = count c := rfl
            rw [hc0] at hprop
            rw [hi0]
            cases hcc : count c with
            | none => rw [hcc] at hprop; cases hprop
            | some n =>
              rw [hcc] at hprop
              cases n with
              | zero => cases hprop
              | succ n =>
                simp only at hprop
                cases hpn : propName P0 (n + 1) (c :: ids.map (fun a => Val.list [a])) with
                | none => rw [hpn] at hprop; cases hprop
                | some q =>
                  rw [hpn] at hprop
                  have hq : q = some p := nonEmpty_some q p (Option.some.inj hprop)
                  rw [hq] at hpn
                  match n, hpn with
                  | 0, hpn =>
                    match ids, hpn, htr, hr with
                    | [], hpn, _, _ => cases hpn
                    | a :: ids, hpn, htr, hr =>
                      obtain ⟨kids, hd⟩ := propName_one P0 a c _ p hpn
                      obtain ⟨l, r, rfl, hr1, rfl, rfl, _⟩ := propsById_mem props P0 hP0 _ _ _ hd
                      have hx := dictGet_mem (propsByName (some l)) hnd (r.name, PropId.one r.id) (propsByName_one l r hr1)
                      rw [hx]
                      simp only
                      have hg : ¬ (PropId.one r.id).given = false := by
                        show ¬ truthy r.id = false
                        rw [htr _ List.mem_cons_self]; simp
                      rw [if_neg hg]
                      show (if 1 < (c :: Val.list [r.id] :: ids.map (fun a => Val.list [a])).length then _ else _) = _
                      rw [if_pos (by simp)]
                      show some (raw.set i (.list (c :: .list [r.id] :: ids.map (fun a => Val.list [a])))) = some raw
                      congr 1
                      exact set_same raw i _ hr
                  | 1, hpn =>
                    match ids, hpn, htr, hr with
                    | [], hpn, _, _ => cases hpn
                    | [a], hpn, _, _ =>
                      exfalso
                      rw [propName] at hpn
                      simp only [List.map_cons, List.map_nil, List.getElem?_cons_succ, List.getElem?_cons_zero, Option.bind_some, List.getElem?_nil, Option.bind_none] at hpn
                      have hi : idx (.list [a]) 0 = some a := rfl
                      rw [hi] at hpn
                      simp only at hpn
                      by_cases hh : hashable a = false
                      · rw [if_pos hh] at hpn; cases hpn
                      · rw [if_neg hh] at hpn
                        cases hd : dictGet P0 a with
                        | none => rw [hd] at hpn; cases hpn
                        | some q => obtain ⟨nm, kids⟩ := q; rw [hd] at hpn; simp only at hpn; rw [if_neg (by decide)] at hpn; cases hpn
                    | a :: b :: ids, hpn, htr, hr =>
                      obtain ⟨nm, kids, nm2, hd, hd2, rfl⟩ := propName_two P0 a b c _ p hpn
                      obtain ⟨l, r, rfl, hr1, rfl, rfl, rfl⟩ := propsById_mem props P0 hP0 _ _ _ hd
                      have hm := dictGet_some _ _ _ hd2
                      rw [List.mem_map] at hm
                      obtain ⟨ch, hch, he⟩ := hm
                      cases he
                      have hx := dictGet_mem (propsByName (some l)) hnd _ (propsByName_two l r hr1 ch hch)
                      simp only at hx
                      rw [hx]
                      simp only
                      have hg : ¬ (PropId.two r.id ch.id).given = false := by
                        show ¬ true = false
                        simp
                      rw [if_neg hg]
                      simp only [PropId.at', List.getElem?_cons_succ, List.getElem?_cons_zero]
                      rw [if_pos (by simp)]
                      show some (raw.set i (.list (c :: .list [r.id] :: .list [ch.id] :: ids.map (fun a => Val.list [a])))) = some raw
                      congr 1
                      exact set_same raw i _ hr
                  | n + 2, hpn => exact absurd hpn (propName_more P0 _ _ p (by omega))

theorem relinkCommand_same (commands : Option (List Rec)) (C0 : List (Val × Text)) (hC0 : commandsById commands = some C0)
    (C : List (Text × Val)) (hC : commandsByName commands = some C) (hnd : (C.map (·.1)).Nodup) (k : Kind) (command : Option Text)
    (raw : List Val) (hcmd : elemCommand C0 k raw = some command)
    (hl : ∀ cs i link, k.command = some cs → calcOffset raw cs 0 = some i → raw[i]? = some link → truthy link = true →
      ∀ l r, commands = some l → r ∈ l → idx link 0 = some r.id → idx r.raw 1 = some link) :
    relinkCommand C k command raw = some raw := by
  cases command with
  | none => cases hk : k.command <;> rw [relinkCommand] <;> intro _ _ h <;> cases h
  | some p =>
    cases hk : k.command with
    | none => rw [relinkCommand.eq_def]; simp only [hk]
    | some cs =>
      rw [elemCommand, hk] at hcmd
      simp only at hcmd
      cases ho : calcOffset raw cs 0 with
      | none => rw [ho] at hcmd; cases hcmd
      | some i =>
        rw [ho] at hcmd
        simp only at hcmd
        cases hr : raw[i]? with
        | none => rw [hr] at hcmd; cases hcmd
        | some link =>
          rw [hr] at hcmd
          simp only at hcmd
          rw [relinkCommand.eq_def]
          simp only [hk, ho, hr]
          by_cases ht : truthy link = false
          · rw [if_pos ht]
          · rw [if_neg ht] at hcmd ⊢
            cases h0 : idx link 0 with
            | none => rw [h0] at hcmd; cases hcmd
            | some c =>
              rw [h0] at hcmd
              simp only at hcmd
              cases hcc : count c with
              | none => rw [hcc] at hcmd; cases hcmd
              | some n =>
                rw [hcc] at hcmd
                cases n with
                | zero => cases hcmd
                | succ n =>
                  simp only at hcmd
                  have hd := nonEmpty_some _ p (Option.some.inj hcmd)
                  cases commands with
                  | none =>
                    cases hC0
                    cases dictGet_some _ _ _ hd
                  | some l =>
                    rw [commandsById] at hC0
                    split at hC0
                    case isFalse => cases hC0
                    case isTrue =>
                    cases hC0
                    have hm := dictGet_some _ _ _ hd
                    rw [List.mem_map] at hm
                    obtain ⟨r, hr1, he⟩ := hm
                    cases he
                    have hlk := hl cs i link hk ho hr (by simpa using ht) l r rfl hr1 h0
                    rw [commandsByName] at hC
                    split at hC
                    case isFalse => cases hC
                    case isTrue =>
                    cases hC
                    have hx := dictGet_mem _ hnd (r.name, (idx r.raw 1).getD .none) (List.mem_map.mpr ⟨r, hr1, rfl⟩)
                    simp only at hx
                    rw [hx, hlk]
                    simp only [Option.getD_some]
                    rw [if_neg ht, set_same raw i _ hr]

/-- building does not change an element whose links are in the usual form and whose attributes and commands have different names -/
theorem relink_same (props : Option (List PropRec)) (commands : Option (List Rec)) (P0 : PropsById) (hP0 : propsById props = some P0)
    (C0 : List (Val × Text)) (hC0 : commandsById commands = some C0) (C : List (Text × Val)) (hC : commandsByName commands = some C)
    (hnd : ((propsByName props).map (·.1)).Nodup) (hnd2 : (C.map (·.1)).Nodup) (k : Kind) (name key : Text) (d : Data)
    (hprop : elemProp P0 k d.raw = some d.prop) (hcmd : elemCommand C0 k d.raw = some d.command) (hname : elemName k d.raw = some name)
    (hq : ∀ i tok, calcOffset d.raw k.name 0 = some i → d.raw[i]? = some (.str tok) → strEncode (strDecode tok) = tok)
    (hl : ∀ cs i link, k.prop = some cs → calcOffset d.raw cs 0 = some i → d.raw[i]? = some link → truthy link = true → LinkOk link)
    (hcl : ∀ cs i link, k.command = some cs → calcOffset d.raw cs 0 = some i → d.raw[i]? = some link → truthy link = true →
      ∀ l r, commands = some l → r ∈ l → idx link 0 = some r.id → idx r.raw 1 = some link) :
    relink (propsByName props) C k name key d = some d.raw := by
  have h1 : (if occurs includr key then rename k name d.raw else some d.raw) = some d.raw := by
    by_cases h : occurs includr key = true
    · rw [if_pos h]; exact rename_same k name d.raw hname hq
    · rw [if_neg h]
  rw [relink, h1]
  simp only
  by_cases h : (occurs include' key || occurs includr key) = true
  · rw [if_pos h, relinkProp_same props P0 hP0 hnd k d.prop d.raw hprop hl]
    exact relinkCommand_same commands C0 hC0 C hC hnd2 k d.command d.raw hcmd hcl
  · rw [if_neg h]

/-! ### the entries of the elements -/

/-- an entry holds what was read from it -/
def Read (P : PropsById) (C : List (Val × Text)) (k : Kind) (name : Text) (d : Data) : Prop :=
  elemProp P k d.raw = some d.prop ∧ elemCommand C k d.raw = some d.command ∧ elemName k d.raw = some name

theorem offsets_lt (k : Kind) (cs : List (Nat × Nat)) (hc : k.child = some cs) (raw : List Val) (i : Nat) (hi : calcOffset raw cs 0 = some i) :
    (∃ j, calcOffset raw k.name 0 = some j ∧ j < i) ∧ (∀ ps, k.prop = some ps → ∃ j, calcOffset raw ps 0 = some j ∧ j < i) ∧ k.command = none := by
  cases k <;> cases hc
  · -- group
    refine ⟨?_, (fun ps h => by cases h), rfl⟩
    simp only [calcOffset, Kind.name, Nat.reduceEqDiff, if_false, if_true] at hi ⊢
    cases h1 : countAt raw (0 + 3) with
    | none => rw [h1] at hi; cases hi
    | some v =>
      rw [h1] at hi
      simp only at hi ⊢
      cases h2 : countAt raw (0 + 3 + v * 1 + 1) with
      | none => rw [h2] at hi; cases hi
      | some w => rw [h2] at hi; cases hi; exact ⟨_, rfl, by omega⟩
  · -- table
    simp only [calcOffset, Nat.reduceEqDiff, if_false, if_true] at hi
    cases h1 : countAt raw (0 + 4) with
    | none => rw [h1] at hi; cases hi
    | some v =>
      rw [h1] at hi
      simp only at hi
      cases h2 : countAt raw (0 + 4 + v * 1 + 50) with
      | none => rw [h2] at hi; cases hi
      | some w =>
        rw [h2] at hi
        cases hi
        refine ⟨?_, ?_, rfl⟩
        · simp only [calcOffset, Kind.name, Nat.reduceEqDiff, if_false, if_true, h1]
          exact ⟨_, rfl, by omega⟩
        · intro ps h
          cases h
          simp only [calcOffset, Nat.reduceEqDiff, if_false, if_true, h1]
          exact ⟨_, rfl, by omega⟩

theorem Kind.ends_name (k : Kind) : Ends k.name = true := by cases k <;> rfl
theorem Kind.ends_prop (k : Kind) (cs : List (Nat × Nat)) (h : k.prop = some cs) : Ends cs = true := by cases k <;> cases h <;> rfl

theorem read_congr (P : PropsById) (C : List (Val × Text)) (k : Kind) (raw raw' : List Val) (cs : List (Nat × Nat)) (hc : k.child = some cs) (i : Nat)
    (hi : calcOffset raw cs 0 = some i) (hm : ∀ m, m < i → raw'[m]? = raw[m]?) :
    elemProp P k raw' = elemProp P k raw ∧ elemCommand C k raw' = elemCommand C k raw ∧ elemName k raw' = elemName k raw := by
  obtain ⟨⟨j, hj, hji⟩, hp, hcmd⟩ := offsets_lt k cs hc raw i hi
  refine ⟨?_, ?_, ?_⟩
  · rw [elemProp, elemProp]
    cases hk : k.prop with
    | none => rfl
    | some ps =>
      obtain ⟨j2, hj2, hji2⟩ := hp ps hk
      simp only
      rw [hj2, calcOffset_congr raw raw' ps 0 j2 (k.ends_prop ps hk) hj2 (fun m h => hm m (by omega))]
      simp only
      rw [hm j2 hji2]
  · rw [elemCommand, elemCommand, hcmd]
  · rw [elemName, elemName, hj, calcOffset_congr raw raw' k.name 0 j k.ends_name hj (fun m h => hm m (by omega))]
    simp only
    rw [hm j hji]

theorem decodeList_lt (f : Kind → List Val → Option (Node × List (Text × Data))) (i : Nat) (raw raw' : List Val) (nodes : List Node)
    (es : List (Text × Data)) (h : decodeList f i raw = some (raw', nodes, es)) : ∀ m, m < i → raw'[m]? = raw[m]? := by
  rw [decodeList] at h
  cases hc : countAt raw i with
  | none => rw [hc] at h; cases h
  | some n =>
    rw [hc] at h
    cases n with
    | zero => cases h; intro m _; rfl
    | succ n =>
      simp only at h
      cases h2 : decodePairs f (n + 1) (raw.drop (i + 1)) with
      | none => rw [h2] at h; cases h
      | some q =>
        obtain ⟨nodes2, es2⟩ := q
        rw [h2] at h
        cases h
        have hi := countAt_some raw i (n + 1) hc
        have hil : i < raw.length := by rw [List.getElem?_eq_some_iff] at hi; exact hi.1
        intro m hm
        rw [List.getElem?_append_left (by rw [List.length_take]; omega), List.getElem?_take_of_lt hm]

theorem pairs_read (f : Kind → List Val → Option (Node × List (Text × Data))) (path : Text) (Q : Text × Text × Kind → Data → Prop)
    (R : Text × Text × Kind → Prop)
    (hf : ∀ k raw node es, f k raw = some (node, es) → (∀ pl ∈ places path [node], R pl) →
      ∀ pl ∈ places path [node], ∃ d, (key pl.1 pl.2.1, d) ∈ es ∧ Q pl d)
    (hk : ∀ k raw node es, f k raw = some (node, es) → ∃ name child, node = .mk name k child) :
    ∀ (n : Nat) (l : List Val) (nodes : List Node) (es : List (Text × Data)), decodePairs f n l = some (nodes, es) →
      (∀ pl ∈ places path nodes, R pl) →
      ∀ pl ∈ places path nodes, ∃ d, (key pl.1 pl.2.1, d) ∈ es ∧ Q pl d := by
  intro n
  induction n with
  | zero =>
    intro l nodes es h _ pl hpl
    rw [decodePairs] at h
    cases h
    rw [places] at hpl
    cases hpl
  | succ n ih =>
    intro l nodes es h hR pl hpl
    match l, h with
    | .str u :: .list raw :: rest, h =>
      rw [decodePairs] at h
      cases hu : kindOf u with
      | none => rw [hu] at h; cases h
      | some k =>
        rw [hu] at h
        simp only at h
        cases h1 : f k raw with
        | none => rw [h1] at h; cases h
        | some q =>
          obtain ⟨node, es1⟩ := q
          rw [h1] at h
          simp only at h
          cases h2 : decodePairs f n rest with
          | none => rw [h2] at h; cases h
          | some q2 =>
            obtain ⟨nodes2, es2⟩ := q2
            rw [h2] at h
            cases h
            obtain ⟨name, child, rfl⟩ := hk k raw node es1 h1
            have e1 : places path (.mk name k child :: nodes2) = places path [.mk name k child] ++ places path nodes2 := by
              rw [places, places, places, List.append_nil, List.cons_append]
            rw [e1] at hpl hR
            rcases List.mem_append.mp hpl with hpl | hpl
            · obtain ⟨d, hd, hq⟩ := hf k raw _ es1 h1 (fun pl h => hR pl (List.mem_append_left _ h)) pl hpl
              exact ⟨d, List.mem_append_left _ hd, hq⟩
            · obtain ⟨d, hd, hq⟩ := ih rest nodes2 es2 h2 (fun pl h => hR pl (List.mem_append_right _ h)) pl hpl
              exact ⟨d, List.mem_append_right _ hd, hq⟩
    | [], h => cases h
    | [v], h => cases v <;> cases h
    | .none :: _ :: _, h => cases h
    | .list _ :: _ :: _, h => cases h
    | .str _ :: .none :: _, h => cases h
    | .str _ :: .str _ :: _, h => cases h

theorem list_read (f : Kind → List Val → Option (Node × List (Text × Data))) (path : Text) (Q : Text × Text × Kind → Data → Prop)
    (R : Text × Text × Kind → Prop)
    (hf : ∀ k raw node es, f k raw = some (node, es) → (∀ pl ∈ places path [node], R pl) →
      ∀ pl ∈ places path [node], ∃ d, (key pl.1 pl.2.1, d) ∈ es ∧ Q pl d)
    (hk : ∀ k raw node es, f k raw = some (node, es) → ∃ name child, node = .mk name k child)
    (i : Nat) (raw raw' : List Val) (nodes : List Node) (es : List (Text × Data)) (h : decodeList f i raw = some (raw', nodes, es))
    (hR : ∀ pl ∈ places path nodes, R pl) :
    ∀ pl ∈ places path nodes, ∃ d, (key pl.1 pl.2.1, d) ∈ es ∧ Q pl d := by
  rw [decodeList] at h
  cases hc : countAt raw i with
  | none => rw [hc] at h; cases h
  | some n =>
    rw [hc] at h
    cases n with
    | zero => cases h; intro pl hpl; rw [places] at hpl; cases hpl
    | succ n =>
      simp only at h
      cases h2 : decodePairs f (n + 1) (raw.drop (i + 1)) with
      | none => rw [h2] at h; cases h
      | some q =>
        obtain ⟨nodes2, es2⟩ := q
        rw [h2] at h
        cases h
        exact pairs_read f path Q R hf hk (n + 1) _ _ _ h2 hR

/-- every element of the tree has an entry that holds what was read from it -/
theorem elem_read (P : PropsById) (C : List (Val × Text)) :
    ∀ (depth : Nat) (path : Text) (k : Kind) (raw : List Val) (node : Node) (es : List (Text × Data)),
      decodeElem P C depth path k raw = some (node, es) → occurs includr path = false →
      (∀ pl ∈ places path [node], pl.2.2.child ≠ none → NameOk pl.2.2 pl.2.1) →
      ∀ pl ∈ places path [node], ∃ d, (key pl.1 pl.2.1, d) ∈ es ∧ Read P C pl.2.2 pl.2.1 d := by
  intro depth
  induction depth with
  | zero => intro path k raw node es h; cases h
  | succ depth ih =>
    intro path k raw node es h hp hR pl hpl
    rw [decodeElem] at h
    by_cases hs : sizeOk k raw = false
    · rw [if_pos hs] at h; cases h
    · rw [if_neg hs] at h
      cases h1 : elemProp P k raw with
      | none => rw [h1] at h; cases h
      | some prop => cases h2 : elemCommand C k raw with
        | none => rw [h1, h2] at h; cases h
        | some command => cases h3 : elemName k raw with
          | none => rw [h1, h2, h3] at h; cases h
          | some name =>
            rw [h1, h2, h3] at h
            simp only at h
            cases hc : k.child with
            | none =>
              rw [hc] at h
              cases h
              rw [places, places, places] at hpl
              rcases List.mem_cons.mp hpl with rfl | hpl
              · exact ⟨_, List.mem_singleton.mpr rfl, h1, h2, h3⟩
              · cases hpl
            | some cs =>
              rw [hc] at h
              simp only at h
              cases ho : calcOffset raw cs 0 with
              | none => rw [ho] at h; cases h
              | some i =>
                rw [ho] at h
                simp only at h
                cases hl : decodeList (decodeElem P C depth (childPath k path name)) i raw with
                | none => rw [hl] at h; cases h
                | some q =>
                  obtain ⟨raw', nodes, es'⟩ := q
                  rw [hl] at h
                  cases h
                  obtain ⟨hc1, hc2⟩ := childPath_eq k path name hp
                    (hR (path, name, k) (by rw [places]; exact List.mem_cons_self) (by rw [hc]; simp))
                  obtain ⟨b1, b2, b3⟩ := read_congr P C k raw raw' cs hc i ho (decodeList_lt _ i raw raw' nodes es' hl)
                  rw [places] at hpl
                  rcases List.mem_cons.mp hpl with rfl | hpl
                  · exact ⟨_, List.mem_cons_self, by rw [← h1]; exact b1, by rw [← h2]; exact b2, by rw [← h3]; exact b3⟩
                  · rw [places, List.append_nil] at hpl
                    rw [hc1] at hl
                    have hR' : ∀ pl ∈ places (childPathIn k path name) nodes, pl.2.2.child ≠ none → NameOk pl.2.2 pl.2.1 := by
                      intro pl hpl
                      exact hR pl (by rw [places]; exact List.mem_cons_of_mem _ (List.mem_append_left _ hpl))
                    obtain ⟨d, hd, hq⟩ := list_read (decodeElem P C depth (childPathIn k path name)) (childPathIn k path name)
                      (fun pl d => Read P C pl.2.2 pl.2.1 d) (fun pl => pl.2.2.child ≠ none → NameOk pl.2.2 pl.2.1)
                      (fun k raw node es h hR => ih _ k raw node es h hc2 hR)
                      (fun k raw node es h => decodeElem_node _ _ _ _ k raw node es h) i raw raw' nodes es' hl hR' pl hpl
                    exact ⟨d, List.mem_cons_of_mem _ hd, hq⟩

end V8.Form
