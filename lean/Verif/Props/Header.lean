import Verif.Header
import Verif.ModuleLemmas
/-
Property theorems C33 about the model Verif/Header.lean (names, identifiers and the option `prefix`).
-/
namespace V8.Header
open V8.Module V8.Brace V8.Dec

theorem setUuid_some (h : List Val) (l : List Val) (u : Text) (h1 : h[1]? = some (.list l)) (h2 : 2 < l.length) :
    setUuid h u = some (h.set 1 (.list (l.set 2 (.str u)))) := by
  simp [setUuid, listAt, h1, h2]

theorem stripped_eq (p name : Text) : stripped p name = if p ≠ [] ∧ p <+: name then name.drop p.length else name := by
  simp [stripped, List.isPrefixOf_iff_prefix]

theorem strEncode_inj {a b : Text} (h : strEncode a = strEncode b) : a = b := by
  rw [← strDecode_strEncode a, h, strDecode_strEncode]

theorem listAt_some {h : List Val} {i : Nat} {l : List Val} : listAt h i = some l ↔ h[i]? = some (.list l) := by
  rw [listAt]
  cases h[i]? with
  | none => simp
  | some v => cases v <;> simp

theorem strAt_some {h : List Val} {i : Nat} {s : Text} : strAt h i = some s ↔ h[i]? = some (.str s) := by
  rw [strAt]
  cases h[i]? with
  | none => simp
  | some v => cases v <;> simp

/-- what a successful decode_header has seen and left -/
theorem decode_ok {valid : Text → Bool} {p : Text} {sep : Bool} {h h' : List Val} {info : Info}
    (hd : decodeHeader valid p sep h = .ok (info, h')) :
    ∃ l tok, h[1]? = some (.list l) ∧ l[2]? = some (.str info.uuid) ∧ valid info.uuid = true ∧ h[2]? = some (.str tok) ∧
      info.name = stripped p (strDecode tok) ∧
      (let h1 := if p ≠ [] ∧ p <+: strDecode tok then h.set 2 (.str (strEncode info.name)) else h
       h' = if sep then h1.set 1 (.list (l.set 2 (.str elsewhere))) else h1) := by
  rw [decodeHeader] at hd
  cases hl : listAt h 1 with
  | none => simp [hl] at hd
  | some l =>
    have hl' := listAt_some.mp hl
    cases hu : strAt l 2 with
    | none => simp [hl, hu] at hd
    | some u =>
      have hu' := strAt_some.mp hu
      have hl2 : 2 < l.length := by
        rw [List.getElem?_eq_some_iff] at hu'; exact hu'.1
      rw [hl, Option.bind_some, hu] at hd
      simp only at hd
      by_cases hv : valid u = false
      · simp [hv] at hd
      · rw [if_neg hv] at hd
        cases h2 : strAt h 2 with
        | none => simp [h2] at hd
        | some tok =>
          cases h3 : listAt h 3 with
          | none => simp [h2, h3] at hd
          | some names =>
            cases h4 : strAt h 4 with
            | none => simp [h2, h3, h4] at hd
            | some com =>
              rw [h2, h3, h4] at hd
              simp only at hd
              cases hn : (strAt names 0).bind parseInt with
              | none => simp [hn] at hd
              | some n =>
                rw [hn] at hd
                simp only at hd
                cases hr : readNames names n.toNat 0 [] with
                | none => simp [hr] at hd
                | some d =>
                  rw [hr] at hd
                  simp only [List.isPrefixOf_iff_prefix] at hd
                  have hset : ∀ v, (h.set 2 v)[1]? = some (.list l) := by
                    intro v; rw [List.getElem?_set_ne (by omega), hl']
                  cases sep with
                  | false =>
                    simp only [Bool.false_eq_true, if_false, Except.ok.injEq, Prod.mk.injEq] at hd
                    obtain ⟨rfl, rfl⟩ := hd
                    exact ⟨l, tok, hl', hu', by simpa using hv, strAt_some.mp h2, rfl, rfl⟩
                  | true =>
                    by_cases hp : p ≠ [] ∧ p <+: strDecode tok
                    · rw [if_pos hp, if_pos rfl, setUuid_some _ l _ (hset _) hl2] at hd
                      simp only [Except.ok.injEq, Prod.mk.injEq] at hd
                      obtain ⟨rfl, rfl⟩ := hd
                      refine ⟨l, tok, hl', hu', by simpa using hv, strAt_some.mp h2, rfl, ?_⟩
                      simp [hp]
                    · rw [if_neg hp, if_pos rfl, setUuid_some _ l _ hl' hl2] at hd
                      simp only [Except.ok.injEq, Prod.mk.injEq] at hd
                      obtain ⟨rfl, rfl⟩ := hd
                      refine ⟨l, tok, hl', hu', by simpa using hv, strAt_some.mp h2, rfl, ?_⟩
                      simp only [if_neg hp, if_true]

theorem set_same {h : List Val} {i : Nat} {v : Val} (hh : h[i]? = some v) : h.set i v = h := by
  rw [List.getElem?_eq_some_iff] at hh
  obtain ⟨hi, rfl⟩ := hh
  exact List.set_getElem_self hi

/-- **C33, what extraction and build make of a name.**  Only the name in the header changes: an object of the first level that is not
borrowed gets the prefix whatever its name was, any other object loses it. -/
theorem C33_rebuilt (valid : Text → Bool) (p parent name : Text) (h h' : List Val) (info : Info)
    (hd : decodeHeader valid p true h = .ok (info, h')) (hn : h[2]? = some (.str (strEncode name))) :
    encodeHeader p parent info h' = some (h.set 2 (.str (strEncode
      (if '/' ∉ parent ∧ native h then p ++ stripped p name else stripped p name)))) := by
  obtain ⟨l, tok, h1, h2, _, h3, h4, h5⟩ := decode_ok hd
  rw [hn] at h3
  cases h3
  rw [strDecode_strEncode] at h4 h5
  have hl2 : 2 < l.length := by rw [List.getElem?_eq_some_iff] at h2; exact h2.1
  have hh2 : 2 < h.length := by rw [List.getElem?_eq_some_iff] at hn; exact hn.1
  have key : h' = (h.set 2 (.str (strEncode (stripped p name)))).set 1 (.list (l.set 2 (.str elsewhere))) := by
    simp only [if_true] at h5
    by_cases hp : p ≠ [] ∧ p <+: name
    · rw [h5, if_pos hp, h4]
    · rw [h5, if_neg hp, stripped_eq, if_neg hp, set_same hn]
  have hu : setUuid h' info.uuid = some (h.set 2 (.str (strEncode (stripped p name)))) := by
    have hg : h'[1]? = some (.list (l.set 2 (.str elsewhere))) := by
      rw [key, List.getElem?_set_self (by simpa using by omega)]
    rw [setUuid_some _ _ _ hg (by simpa using hl2), key, List.set_set, List.set_set, set_same h2]
    congr 1
    exact set_same (by rw [List.getElem?_set_ne (by omega), h1])
  have hnat : native (h.set 2 (.str (strEncode (stripped p name)))) = native h := by
    rw [native, native, List.length_set, List.getElem?_set_ne (by omega)]
  rw [encodeHeader, hu]
  simp only [hnat, List.length_set, hh2, if_true, List.set_set, h4]
  by_cases ht : '/' ∉ parent ∧ native h
  · rw [if_pos ht, if_pos ht]
  · rw [if_neg ht, if_neg ht]

/-- **C33, partial: exactly when the header comes back.**  After extraction and build with the same prefix the header is the
original one if and only if: for an object of the first level that is not borrowed, its name had the prefix; for any other object, its name
did not have the prefix (or there is no prefix).  Missing: the other objects, see C33_nested_prefix_lost and C33_prefix_added. -/
theorem C33_rebuilt_iff_partial (valid : Text → Bool) (p parent name : Text) (h h' : List Val) (info : Info)
    (hd : decodeHeader valid p true h = .ok (info, h')) (hn : h[2]? = some (.str (strEncode name))) :
    encodeHeader p parent info h' = some h ↔
      (if '/' ∉ parent ∧ native h then p <+: name else p = [] ∨ ¬ p <+: name) := by
  rw [C33_rebuilt valid p parent name h h' info hd hn]
  have hset : ∀ x, some (h.set 2 (.str (strEncode x))) = some h ↔ x = name := by
    intro x
    constructor
    · intro hh
      rw [Option.some.injEq] at hh
      have h2 : 2 < h.length := by rw [List.getElem?_eq_some_iff] at hn; exact hn.1
      have := congrArg (fun y => y[2]?) hh
      simp only [List.getElem?_set_self h2, hn, Option.some.injEq, Val.str.injEq] at this
      exact strEncode_inj this
    · rintro rfl; rw [set_same hn]
  rw [hset, stripped_eq]
  by_cases ht : '/' ∉ parent ∧ native h
  · rw [if_pos ht, if_pos ht]
    constructor
    · intro hh
      rw [← hh]; exact ⟨_, rfl⟩
    · rintro ⟨s, rfl⟩
      cases p with
      | nil => simp
      | cons c q => simp
  · rw [if_neg ht, if_neg ht]
    cases p with
    | nil => simp
    | cons c q =>
      by_cases hp : (c :: q) <+: name
      · obtain ⟨s, rfl⟩ := hp
        simp
        intro hh
        have := congrArg List.length hh
        simp at this
        omega
      · simp [hp]

/-- **C33 is false of the code below the first level**: with a non-empty prefix every nested or borrowed object whose name begins with it
loses it. -/
theorem C33_nested_prefix_lost (valid : Text → Bool) (p parent rest : Text) (h h' : List Val) (info : Info) (hp : p ≠ [])
    (hb : '/' ∈ parent ∨ native h = false)
    (hd : decodeHeader valid p true h = .ok (info, h')) (hn : h[2]? = some (.str (strEncode (p ++ rest)))) :
    encodeHeader p parent info h' = some (h.set 2 (.str (strEncode rest))) := by
  rw [C33_rebuilt valid p parent _ h h' info hd hn, if_neg (by rcases hb with hb | hb <;> simp [hb]), stripped_eq,
    if_pos ⟨hp, ⟨rest, rfl⟩⟩, List.drop_left]

/-- **C33, first level**: an object that did not have the prefix gets it. -/
theorem C33_prefix_added (valid : Text → Bool) (p parent name : Text) (h h' : List Val) (info : Info)
    (hb : '/' ∉ parent) (hnat : native h = true) (hnp : ¬ p <+: name)
    (hd : decodeHeader valid p true h = .ok (info, h')) (hn : h[2]? = some (.str (strEncode name))) :
    encodeHeader p parent info h' = some (h.set 2 (.str (strEncode (p ++ name)))) := by
  rw [C33_rebuilt valid p parent _ h h' info hd hn, if_pos ⟨hb, hnat⟩, stripped_eq, if_neg (fun hh => hnp hh.2)]

/-- **C33, native objects.**  An object counts as borrowed exactly when its header has a sixth value and that value is not `0`. -/
theorem C33_native_iff (h : List Val) : native h = false ↔ ∃ v, h[5]? = some v ∧ v ≠ .str "0".toList := by
  rw [native, Bool.or_eq_false_iff, decide_eq_false_iff_not, decide_eq_false_iff_not]
  constructor
  · rintro ⟨h1, h2⟩
    have : 5 < h.length := by omega
    exact ⟨h[5], List.getElem?_eq_getElem this, fun hh => h2 (by rw [List.getElem?_eq_getElem this, hh]; rfl)⟩
  · rintro ⟨v, h1, h2⟩
    have h5 : 5 < h.length := by rw [List.getElem?_eq_some_iff] at h1; exact h1.1
    exact ⟨by omega, fun hh => h2 (by rw [h1] at hh; exact Option.some.inj hh)⟩

/-- **C33, identifier.**  The identifier recorded apart is the one of the header, and the build puts back the recorded identifier. -/
theorem C33_uuid (valid : Text → Bool) (p parent : Text) (sep : Bool) (h h' : List Val) (info : Info)
    (hd : decodeHeader valid p sep h = .ok (info, h')) :
    (∃ l, h[1]? = some (.list l) ∧ l[2]? = some (.str info.uuid)) ∧ valid info.uuid = true ∧
    ∀ i h'', encodeHeader p parent i h' = some h'' → ∃ l, h''[1]? = some (.list l) ∧ l[2]? = some (.str i.uuid) := by
  obtain ⟨l, tok, h1, h2, h2', _, _, _⟩ := decode_ok hd
  refine ⟨⟨l, h1, h2⟩, h2', ?_⟩
  intro i h'' he
  rw [encodeHeader] at he
  cases hs : setUuid h' i.uuid with
  | none => rw [hs] at he; cases he
  | some g =>
    have hg : ∃ m, g[1]? = some (.list m) ∧ m[2]? = some (.str i.uuid) := by
      rw [setUuid] at hs
      cases hl : listAt h' 1 with
      | none => rw [hl] at hs; cases hs
      | some m =>
        rw [hl] at hs
        simp only at hs
        by_cases hm : 2 < m.length
        · rw [if_pos hm] at hs
          cases hs
          have hlen : 1 < h'.length := by
            have := listAt_some.mp hl
            rw [List.getElem?_eq_some_iff] at this; exact this.1
          exact ⟨m.set 2 (.str i.uuid), by rw [List.getElem?_set_self hlen], by rw [List.getElem?_set_self hm]⟩
        · rw [if_neg hm] at hs; cases hs
    rw [hs] at he
    simp only at he
    by_cases ht : '/' ∉ parent ∧ native g
    · rw [if_pos ht] at he
      by_cases hl : 2 < g.length
      · rw [if_pos hl] at he
        cases he
        obtain ⟨m, hm, hm2⟩ := hg
        exact ⟨m, by rw [List.getElem?_set_ne (by omega), hm], hm2⟩
      · rw [if_neg hl] at he; cases he
    · rw [if_neg ht] at he
      cases he
      exact hg

/-- a header of the first level with the prefix `ОО_`: the hypotheses of the theorems hold -/
def sample (flag : Text) : List Val :=
  [.str ['3'], .list [.str ['1'], .str ['0'], .str "0b1".toList], .str "\"ОО_Склады\"".toList,
    .list [.str ['1'], .str "\"ru\"".toList, .str "\"Склады\"".toList], .str "\"\"".toList, .str flag]

example : ∃ info h', decodeHeader (fun _ => true) "ОО_".toList true (sample ['0']) = .ok (info, h') ∧
    info.name = "Склады".toList ∧ info.name2 = [("ru".toList, "Склады".toList)] ∧
    (sample ['0'])[2]? = some (.str (strEncode "ОО_Склады".toList)) ∧ native (sample ['0']) = true ∧
    native (sample ['1']) = false ∧
    encodeHeader "ОО_".toList "Configuration".toList info h' = some (sample ['0']) ∧
    encodeHeader "ОО_".toList "Configuration/Catalog/Склады".toList info h' = some ((sample ['0']).set 2 (.str "\"Склады\"".toList)) :=
  ⟨⟨"0b1".toList, "Склады".toList, [("ru".toList, "Склады".toList)], []⟩,
    ((sample ['0']).set 2 (.str "\"Склады\"".toList)).set 1 (.list [.str ['1'], .str ['0'], .str elsewhere]), by decide +kernel⟩

end V8.Header
