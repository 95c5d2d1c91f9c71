import Verif.Misc
/-
Property theorems C36, C39, C40, C41, C43, C44, C51 about the model Verif/Misc.lean.
-/
namespace V8.Misc
open V8.Brace V8.Dec

/-! ## C36 -/

theorem split3 (s a b c : Text) : Str.split '.' s = [a, b, c] ↔
    s = a ++ '.' :: b ++ '.' :: c ∧ '.' ∉ a ∧ '.' ∉ b ∧ '.' ∉ c := by
  constructor
  · intro h
    have h1 := Str.join_split '.' s
    have h2 := Str.split_mem '.' s
    rw [h] at h1 h2
    refine ⟨?_, h2 a (by simp), h2 b (by simp), h2 c (by simp)⟩
    rw [← h1]
    simp [Str.join]
  · rintro ⟨rfl, ha, hb, hc⟩
    rw [List.append_assoc, List.cons_append, Str.split_append _ _ _ ha, Str.split_append _ _ _ hb, Str.split_clean _ _ hc]

/-- the first two numbers of a version `a.b.c` -/
def Numbers (s : Text) (x y : Int) : Prop :=
  ∃ a b c, s = a ++ '.' :: b ++ '.' :: c ∧ '.' ∉ a ∧ '.' ∉ b ∧ '.' ∉ c ∧ parseInt a = some x ∧ parseInt b = some y

/-- **C36.**  A source tree is accepted if and only if both versions have three parts and the first two of them are the same numbers;
the third part does not matter.  In every other case the build is refused with an exception. -/
theorem C36_accepted_iff (v8 src : Text) : checkVersion v8 src = .ok () ↔ ∃ x y, Numbers v8 x y ∧ Numbers src x y := by
  rw [checkVersion]
  constructor
  · intro h
    split at h
    case h_1 a b c hv =>
      split at h
      case h_1 a' b' c' hs =>
        split at h
        case h_1 x y x' y' h1 h2 h3 h4 =>
          by_cases he : x = x' ∧ y = y'
          · obtain ⟨rfl, rfl⟩ := he
            obtain ⟨e1, e2, e3, e4⟩ := (split3 _ _ _ _).mp hv
            obtain ⟨f1, f2, f3, f4⟩ := (split3 _ _ _ _).mp hs
            exact ⟨x, y, ⟨a, b, c, e1, e2, e3, e4, h1, h2⟩, ⟨a', b', c', f1, f2, f3, f4, h3, h4⟩⟩
          · rw [if_neg he] at h; cases h
        case h_2 => cases h
      case h_2 => cases h
    case h_2 => cases h
  · rintro ⟨x, y, ⟨a, b, c, e1, e2, e3, e4, h1, h2⟩, ⟨a', b', c', f1, f2, f3, f4, h3, h4⟩⟩
    rw [(split3 _ _ _ _).mpr ⟨e1, e2, e3, e4⟩, (split3 _ _ _ _).mpr ⟨f1, f2, f3, f4⟩]
    simp [h1, h2, h3, h4]

/-- a version number as the tool writes it -/
def version (a b c : Nat) : Text := showNat a ++ '.' :: showNat b ++ '.' :: showNat c

theorem numbers_version (a b c : Nat) (x y : Int) : Numbers (version a b c) x y ↔ x = a ∧ y = b := by
  constructor
  · rintro ⟨a', b', c', h, h1, h2, h3, h4, h5⟩
    have e1 := (split3 (version a b c) a' b' c').mpr ⟨h, h1, h2, h3⟩
    have e2 := (split3 (version a b c) (showNat a) (showNat b) (showNat c)).mpr ⟨rfl, showNat_noDot a, showNat_noDot b, showNat_noDot c⟩
    rw [e1] at e2
    simp only [List.cons.injEq, and_true] at e2
    obtain ⟨rfl, rfl, rfl⟩ := e2
    rw [parse_showNat] at h4 h5
    exact ⟨(Option.some.inj h4).symm, (Option.some.inj h5).symm⟩
  · rintro ⟨rfl, rfl⟩
    exact ⟨showNat a, showNat b, showNat c, rfl, showNat_noDot a, showNat_noDot b, showNat_noDot c, parse_showNat a, parse_showNat b⟩

/-- **C36, versions of releases.**  A tree extracted by release `a.b.c` is accepted by release `a'.b'.c'` if and only if `a = a'` and `b = b'`;
a tree without a version is refused. -/
theorem C36_releases (a b c a' b' c' : Nat) :
    (checkVersion (version a' b' c') (version a b c) = .ok () ↔ a = a' ∧ b = b') ∧ checkVersion (version a' b' c') [] ≠ .ok () := by
  constructor
  · rw [C36_accepted_iff]
    constructor
    · rintro ⟨x, y, h1, h2⟩
      rw [numbers_version] at h1 h2
      omega
    · rintro ⟨rfl, rfl⟩
      exact ⟨a, b, (numbers_version _ _ _ _ _).mpr ⟨rfl, rfl⟩, (numbers_version _ _ _ _ _).mpr ⟨rfl, rfl⟩⟩
  · rw [Ne, C36_accepted_iff]
    rintro ⟨x, y, _, ⟨a, b, c, h, _⟩⟩
    cases a <;> simp at h

example : version 1 2 11 = "1.2.11".toList ∧ checkVersion "1.2.11".toList "1.2.3".toList = .ok () ∧
    checkVersion "1.2.11".toList "1.1.11".toList = .error .assertion ∧ checkVersion "1.2.11".toList "1.2".toList = .error .assertion ∧
    checkVersion "1.2.11".toList "1.x.0".toList = .error .value := by decide +kernel

/-! ## C39 -/

/-- the version of the platform that the first row of the file `version` stands for: two numbers - 8.2; three - the first three characters
of the mode, where `1` and `2` mean 8.2 -/
inductive ModeOf : Val → Text → Prop
  | two (a b : Val) : ModeOf (.list [a, b]) "802".toList
  | mode (a b : Val) (c1 c2 c3 : Char) (s : Text) (r : List Val) :
      ModeOf (.list [a, b, .list (.str (c1 :: c2 :: c3 :: s) :: r)]) [c1, c2, c3]
  | old (a b : Val) (s : Text) (r : List Val) (h : s = ['1'] ∨ s = ['2']) : ModeOf (.list [a, b, .list (.str s :: r)]) "802".toList

theorem len_list (row : Val) (n : Nat) : len' row = some n ↔ ∃ l, row = .list l ∧ l.length = n := by
  cases row <;> simp [len']

theorem objVersion_iff (row : Val) (v : Text) : objVersion row = some v ↔ ModeOf row v := by
  constructor
  · intro h
    rw [objVersion] at h
    split at h
    case h_1 hl =>
      obtain ⟨l, rfl, hl⟩ := (len_list _ _).mp hl
      cases h
      match l, hl with
      | [a, b], _ => exact .two a b
    case h_2 hl =>
      obtain ⟨l, rfl, hl⟩ := (len_list _ _).mp hl
      match l, hl with
      | [a, b, c], _ =>
        split at h
        case h_1 s hs =>
          simp only [at', List.getElem?_cons_succ, List.getElem?_cons_zero, Option.bind_some] at hs
          cases c with
          | none => simp [at'] at hs
          | str _ => simp [at'] at hs
          | list q =>
            cases q with
            | nil => simp [at'] at hs
            | cons d r =>
              cases d with
              | none => simp [at', str'] at hs
              | list _ => simp [at', str'] at hs
              | str u =>
                simp [at', str'] at hs
                subst hs
                by_cases h3 : (u.take 3).length = 3
                · simp only [h3, if_true, Option.some.injEq] at h
                  match u, h3 with
                  | c1 :: c2 :: c3 :: t, _ => subst h; exact .mode a b c1 c2 c3 t r
                  | [_, _], h3 => simp at h3
                  | [_], h3 => simp at h3
                  | [], h3 => simp at h3
                · simp only [h3, if_false] at h
                  have hu : u.take 3 = u := by
                    rw [List.take_of_length_le]
                    rw [List.length_take] at h3
                    omega
                  rw [hu] at h
                  by_cases hq : u = ['1'] ∨ u = ['2']
                  · rw [if_pos hq] at h; cases h
                    exact .old a b u r hq
                  · rw [if_neg hq] at h; cases h
        case h_2 => cases h
    case h_3 => cases h
  · intro h
    cases h with
    | two a b => rfl
    | mode a b c1 c2 c3 s r => rfl
    | old a b s r h => rcases h with rfl | rfl <;> rfl

/-- the number at the head of a row -/
def NumberOf (row : Val) (n : Int) : Prop := ∃ s r, row = .list (.str s :: r) ∧ parseInt s = some n

theorem verNumber_iff (row : Val) (n : Int) : verNumber row = some n ↔ NumberOf row n := by
  rw [verNumber]
  constructor
  · intro h
    cases row with
    | none => simp [at'] at h
    | str _ => simp [at'] at h
    | list l =>
      cases l with
      | nil => simp [at'] at h
      | cons v r =>
        cases v with
        | none => simp [at', str'] at h
        | list _ => simp [at', str'] at h
        | str s => exact ⟨s, r, rfl, by simpa [at', str'] using h⟩
  · rintro ⟨s, r, rfl, h⟩
    simpa [at', str'] using h

/-- the row `version[0][0]` -/
def RowOf (version row : Val) : Prop := ∃ r r', version = .list (.list (row :: r) :: r')

theorem verRow_iff (v row : Val) : verRow v = some row ↔ RowOf v row := by
  rw [verRow]
  constructor
  · intro h
    cases v with
    | none => simp [at'] at h
    | str _ => simp [at'] at h
    | list l =>
      cases l with
      | nil => simp [at'] at h
      | cons v r =>
        cases v with
        | none => simp [at'] at h
        | str _ => simp [at'] at h
        | list m =>
          cases m with
          | nil => simp [at'] at h
          | cons x y => exact ⟨y, r, by simp [at'] at h; rw [h]⟩
  · rintro ⟨r, r', rfl⟩
    simp [at']

/-- the identifier of the type in the header: `header[0][3][0]` -/
def typeId (header : Val) : Option Text := (((at' 0 header).bind (at' 3)).bind (at' 0)).bind str'

/-- the class made for a type of root object -/
inductive ClassOf : Text → Cls → Prop
  | processor : ClassOf "ExternalDataProcessor".toList .processor
  | report : ClassOf "ExternalReport".toList .processor
  | config : ClassOf "Configuration".toList .config
  | extension : ClassOf "ConfigurationExtension".toList .extension

theorem lookup_iff (t : Text) (c : Cls) : available.lookup t = some c ↔ ClassOf t c := by
  constructor
  · intro h
    simp only [available, List.lookup] at h
    split at h
    case h_1 _ h1 => cases h; rw [beq_iff_eq] at h1; subst h1; exact .processor
    case h_2 =>
      split at h
      case h_1 _ h1 => cases h; rw [beq_iff_eq] at h1; subst h1; exact .report
      case h_2 =>
        split at h
        case h_1 _ h1 => cases h; rw [beq_iff_eq] at h1; subst h1; exact .config
        case h_2 =>
          split at h
          case h_1 _ h1 => cases h; rw [beq_iff_eq] at h1; subst h1; exact .extension
          case h_2 => cases h
  · intro h
    cases h <;> decide +kernel

/-- an extension described by `configinfo`: number at least 216, three values, a mode that begins with 803 -/
def ExtensionOf (configinfo : Option Val) (v : Text) : Prop :=
  ∃ c row n a b m q, configinfo = some c ∧ (∃ x r r', c = .list (.list (x :: row :: r) :: r')) ∧ NumberOf row n ∧ 216 ≤ n ∧
    row = .list [a, b, .list (.str m :: q)] ∧ v = m ∧ ∃ t, m = "803".toList ++ t

theorem configRow_iff (c row : Val) : (at' 0 c).bind (at' 1) = some row ↔ ∃ x r r', c = .list (.list (x :: row :: r) :: r') := by
  constructor
  · intro h
    cases c with
    | none => simp [at'] at h
    | str _ => simp [at'] at h
    | list l =>
      cases l with
      | nil => simp [at'] at h
      | cons v r =>
        cases v with
        | none => simp [at'] at h
        | str _ => simp [at'] at h
        | list m =>
          match m with
          | [] => simp [at'] at h
          | [_] => simp [at'] at h
          | x :: y :: z => exact ⟨x, z, r, by simp [at'] at h; rw [h]⟩
  · rintro ⟨x, r, r', rfl⟩
    simp [at']

theorem byConfiginfo_iff (ci : Option Val) (k : Cls) (v : Text) :
    byConfiginfo ci = some (k, v) ↔ k = .extension ∧ ExtensionOf ci v := by
  rw [byConfiginfo]
  cases ci with
  | none =>
    constructor
    · intro h; cases h
    · rintro ⟨_, c, _, _, _, _, _, _, h, _⟩; cases h
  | some c =>
    rw [Option.bind_some]
    cases hr : (at' 0 c).bind (at' 1) with
    | none =>
      constructor
      · intro h; cases h
      · rintro ⟨_, c', row, _, _, _, _, _, h, h', _⟩
        cases h
        rw [(configRow_iff c row).mpr h'] at hr
        cases hr
    | some row =>
      have hrow : ∀ c' row', some c = some c' → (∃ x r r', c' = Val.list (.list (x :: row' :: r) :: r')) → row' = row := by
        intro c' row' h h'
        cases h
        rw [(configRow_iff c row').mpr h'] at hr
        exact Option.some.inj hr
      simp only
      cases hn : verNumber row with
      | none =>
        constructor
        · intro h; cases h
        · rintro ⟨_, c', row', n, _, _, _, _, h, h', h3, _⟩
          rw [hrow c' row' h h', ← verNumber_iff, hn] at h3
          cases h3
      | some n =>
        simp only
        by_cases h6 : n ≥ 216
        · rw [if_pos h6]
          by_cases hl : len' row = some 3
          · rw [if_pos hl]
            obtain ⟨l, rfl, hl⟩ := (len_list _ _).mp hl
            match l, hl with
            | [a, b, x], _ =>
              constructor
              · intro h
                split at h
                case h_1 s hs =>
                  cases x with
                  | none => simp [at'] at hs
                  | str _ => simp [at'] at hs
                  | list q =>
                    cases q with
                    | nil => simp [at'] at hs
                    | cons d r =>
                      cases d with
                      | none => simp [at', str'] at hs
                      | list _ => simp [at', str'] at hs
                      | str u =>
                        simp [at', str'] at hs
                        subst hs
                        by_cases h8 : Str.starts "803".toList u = true
                        · rw [if_pos h8] at h
                          cases h
                          rw [Str.starts, List.isPrefixOf_iff_prefix] at h8
                          obtain ⟨t, ht⟩ := h8
                          exact ⟨rfl, c, _, n, a, b, _, r, rfl, (configRow_iff _ _).mp hr, (verNumber_iff _ _).mp hn, h6, rfl, rfl, t, ht.symm⟩
                        · rw [if_neg h8] at h; cases h
                case h_2 => cases h
              · rintro ⟨rfl, c', row', n', a', b', m, q, h, h', h3, h4, h5, rfl, t, rfl⟩
                rw [← hrow c' row' h h', h5]
                rfl
          · rw [if_neg hl]
            constructor
            · intro h; cases h
            · rintro ⟨_, c', row', n', a', b', m, q, h, h', h3, h4, h5, _⟩
              rw [hrow c' row' h h'] at h5
              rw [h5] at hl
              exact absurd rfl hl
        · rw [if_neg h6]
          constructor
          · intro h; cases h
          · rintro ⟨_, c', row', n', _, _, _, _, h, h', h3, h4, _⟩
            rw [hrow c' row' h h', ← verNumber_iff, hn] at h3
            cases h3
            exact absurd h4 h6

/-- **C39.**  The whole decision table.  With a root file and a version number of at least 216 the class is the one of the type named in
the header and the version of the platform is read from the version row; with the number 106 it is an external processor of 8.1; in
any other case only an extension described by `configinfo` is accepted, and everything else is refused. -/
theorem C39_handler_iff (typeName : Text → Option Text) (root : Bool) (version header : Val) (ci : Option Val) (k : Cls) (v : Text) :
    handler typeName root version header ci = some (k, v) ↔
      (root = true ∧ ∃ row n, RowOf version row ∧ NumberOf row n ∧
        ((216 ≤ n ∧ ∃ u ty, typeId header = some u ∧ typeName u = some ty ∧ ClassOf ty k ∧ ModeOf row v) ∨
         (n < 216 ∧ (∃ r, row = .list (.str "106".toList :: r)) ∧ k = .processor ∧ v = "801".toList) ∨
         (n < 216 ∧ (¬ ∃ r, row = .list (.str "106".toList :: r)) ∧ k = .extension ∧ ExtensionOf ci v))) ∨
      (root = false ∧ k = .extension ∧ ExtensionOf ci v) := by
  rw [handler]
  cases root with
  | false => simp [byConfiginfo_iff]
  | true =>
    simp only [if_true, true_and, Bool.true_eq_false, false_and, or_false]
    cases hr : verRow version with
    | none =>
      constructor
      · intro h; cases h
      · rintro ⟨row, n, h, _⟩
        rw [← verRow_iff, hr] at h; cases h
    | some row =>
      have hrow : ∀ row', RowOf version row' → row' = row := by
        intro row' h
        rw [← verRow_iff, hr] at h; exact (Option.some.inj h).symm
      simp only
      cases hn : verNumber row with
      | none =>
        constructor
        · intro h; cases h
        · rintro ⟨row', n, h, h2, _⟩
          rw [hrow row' h, ← verNumber_iff, hn] at h2; cases h2
      | some n =>
        have hnum : ∀ m, NumberOf row m → m = n := by
          intro m h
          rw [← verNumber_iff, hn] at h; exact (Option.some.inj h).symm
        have hR := (verRow_iff _ _).mp hr
        have hN := (verNumber_iff _ _).mp hn
        simp only
        by_cases h6 : n ≥ 216
        · rw [if_pos h6]
          constructor
          · intro h
            split at h
            case h_1 => cases h
            case h_2 u hu =>
              split at h
              case h_1 => cases h
              case h_2 ty hty =>
                split at h
                case h_1 => cases h
                case h_2 w hw =>
                  rw [Option.map_eq_some_iff] at h
                  obtain ⟨c, hc, he⟩ := h
                  cases he
                  exact ⟨row, n, hR, hN, .inl ⟨h6, u, ty, hu, hty, (lookup_iff _ _).mp hc, (objVersion_iff _ _).mp hw⟩⟩
          · rintro ⟨row', n', h1, h2, h3⟩
            have := hrow row' h1
            subst this
            have := hnum n' h2
            subst this
            rcases h3 with ⟨_, u, ty, hu, hty, hc, hm⟩ | ⟨h3, _⟩ | ⟨h3, _⟩
            · rw [typeId] at hu
              rw [hu]
              simp only [hty, (objVersion_iff _ _).mpr hm, (lookup_iff _ _).mpr hc, Option.map_some]
            · omega
            · omega
        · rw [if_neg h6]
          have h106 : (at' 0 row = some (.str "106".toList)) ↔ ∃ r, row = .list (.str "106".toList :: r) := by
            constructor
            · intro h
              cases row with
              | none => simp [at'] at h
              | str _ => simp [at'] at h
              | list l =>
                cases l with
                | nil => simp [at'] at h
                | cons x r =>
                  refine ⟨r, ?_⟩
                  rw [at', List.getElem?_cons_zero] at h
                  rw [Option.some.inj h]
            · rintro ⟨r, rfl⟩; rfl
          by_cases h1 : at' 0 row = some (.str "106".toList)
          · rw [if_pos h1]
            constructor
            · intro h
              cases h
              exact ⟨row, n, hR, hN, .inr (.inl ⟨by omega, h106.mp h1, rfl, rfl⟩)⟩
            · rintro ⟨row', n', h1', h2, h3⟩
              have := hrow row' h1'
              subst this
              have := hnum n' h2
              subst this
              rcases h3 with ⟨h3, _⟩ | ⟨_, _, rfl, rfl⟩ | ⟨_, h4, _⟩
              · omega
              · rfl
              · exact absurd (h106.mp h1) h4
          · rw [if_neg h1, byConfiginfo_iff]
            constructor
            · rintro ⟨rfl, h⟩
              exact ⟨row, n, hR, hN, .inr (.inr ⟨by omega, fun hh => h1 (h106.mpr hh), rfl, h⟩)⟩
            · rintro ⟨row', n', h1', h2, h3⟩
              have := hrow row' h1'
              subst this
              have := hnum n' h2
              subst this
              rcases h3 with ⟨h3, _⟩ | ⟨_, h4, _⟩ | ⟨_, _, h5⟩
              · omega
              · exact absurd (h106.mpr h4) h1
              · exact h5

/-- **C39, build side.**  The build chooses the same handler as the extraction: the choice depends on the root file only through its being
there, and on the header only through the identifier of its type. -/
theorem C39_same_at_build (typeName : Text → Option Text) (root : Bool) (version h1 h2 : Val) (ci : Option Val)
    (h : typeId h1 = typeId h2) : handler typeName root version h1 ci = handler typeName root version h2 ci := by
  rw [handler, handler]
  simp only [typeId] at h
  rw [h]

example : handler (fun u => if u = "9cd5".toList then some "Configuration".toList else none) true
      (.list [.list [.list [.str "216".toList, .str "0".toList, .list [.str "80316".toList, .str "0".toList]]]])
      (.list [.list [.str "2".toList, .none, .none, .list [.str "9cd5".toList]]]) none = some (.config, "803".toList) ∧
    handler (fun _ => none) true (.list [.list [.list [.str "106".toList, .str "0".toList]]]) .none none = some (.processor, "801".toList) ∧
    handler (fun _ => none) false .none .none
      (some (.list [.list [.str "0".toList, .list [.str "216".toList, .str "0".toList, .list [.str "80318".toList]]]])) =
      some (.extension, "80318".toList) := by decide +kernel

/-- **C39, type of a source tree.**  A source tree is built as the first type, in the order external processor, external report, configuration,
extension, whose file is there. -/
theorem C39_encoder (isFile : Text → Bool) (t : Text) : getEncoder isFile = some t ↔
    ∃ l r, available.map (·.1) = l ++ t :: r ∧ isFile (t ++ ".json".toList) = true ∧ ∀ x ∈ l, isFile (x ++ ".json".toList) = false := by
  rw [getEncoder, List.find?_eq_some_iff_append]
  constructor
  · rintro ⟨h, l, r, e, h2⟩
    exact ⟨l, r, e, h, fun x hx => by simpa using h2 x hx⟩
  · rintro ⟨l, r, e, h, h2⟩
    exact ⟨h, l, r, e, fun x hx => by simpa using h2 x hx⟩

/-! ## C51 -/

/-- **C51, one container.**  With one container the choice is that container, and no archive is made; with none or more than two the extraction
is refused. -/
theorem C51_one_partial (listing : List Text) :
    (∀ c, listing = [c] → chooseContainer listing = some (c, false)) ∧
    (listing.length ≠ 1 → listing.length ≠ 2 → chooseContainer listing = none) := by
  constructor
  · rintro c rfl; rfl
  · intro h1 h2
    rw [chooseContainer, if_neg (by omega)]

/-- **C51 is false of the code for two containers**: whatever the two containers are, the one that is taken apart depends on the order in
which the system lists them. -/
theorem C51_depends_on_listing (a b : Text) (h : a ≠ b) :
    [a, b].Perm [b, a] ∧ chooseContainer [a, b] = some (b, true) ∧ chooseContainer [b, a] = some (a, true) ∧
    chooseContainer [a, b] ≠ chooseContainer [b, a] := by
  refine ⟨List.Perm.swap _ _ _, rfl, rfl, ?_⟩
  intro he
  have : some (b, true) = some (a, true) := he
  simp at this
  exact h this.symm

example : "0".toList ≠ "1".toList := by decide

/-! ## C40 -/

/-- **C40, directories.**  The directory is made if and only if one of the first three calls succeeds and the ones before it failed with a permission
error; the failure is reported as a permission error if and only if all three calls failed so; any other error is reported at
once.  At most three calls are made. -/
theorem C40_makedirs {E : Type} (os : Nat → Out E) :
    ((makedirs os).1 = .done ↔ ∃ i < 3, os i = .ok ∧ ∀ j < i, os j = .perm) ∧
    ((makedirs os).1 = .perm ↔ ∀ i < 3, os i = .perm) ∧
    (∀ e, (makedirs os).1 = .other e ↔ ∃ i < 3, os i = .other e ∧ ∀ j < i, os j = .perm) ∧
    (∀ i < 3, (∀ j < i, os j = .perm) → os i ≠ .perm → (makedirs os).2 = i + 1) ∧ (makedirs os).2 ≤ 3 := by
  have hall : ∀ P : Nat → Prop, (∃ i < 3, P i) ↔ P 0 ∨ P 1 ∨ P 2 := by
    intro P
    constructor
    · rintro ⟨i, hi, h⟩
      match i, hi with
      | 0, _ => exact .inl h
      | 1, _ => exact .inr (.inl h)
      | 2, _ => exact .inr (.inr h)
    · rintro (h | h | h)
      · exact ⟨0, by omega, h⟩
      · exact ⟨1, by omega, h⟩
      · exact ⟨2, by omega, h⟩
  have hf3 : ∀ P : Nat → Prop, (∀ i < 3, P i) ↔ P 0 ∧ P 1 ∧ P 2 := by
    intro P
    constructor
    · intro h; exact ⟨h 0 (by omega), h 1 (by omega), h 2 (by omega)⟩
    · rintro ⟨h0, h1, h2⟩ i hi
      match i, hi with
      | 0, _ => exact h0
      | 1, _ => exact h1
      | 2, _ => exact h2
  have hf0 : ∀ P : Nat → Prop, (∀ i < 0, P i) ↔ True := by
    intro P; simp
  have hf1 : ∀ P : Nat → Prop, (∀ i < 1, P i) ↔ P 0 := by
    intro P
    constructor
    · intro h; exact h 0 (by omega)
    · intro h i hi
      have : i = 0 := by omega
      subst this; exact h
  have hf2 : ∀ P : Nat → Prop, (∀ i < 2, P i) ↔ P 0 ∧ P 1 := by
    intro P
    constructor
    · intro h; exact ⟨h 0 (by omega), h 1 (by omega)⟩
    · rintro ⟨h0, h1⟩ i hi
      match i, hi with
      | 0, _ => exact h0
      | 1, _ => exact h1
  simp only [hall, hf3, hf0, hf1, hf2, makedirs, attempts]
  cases h0 : os 0 <;> cases h1 : os 1 <;> cases h2 : os 2 <;> simp

/-- the first outcome that is not a permission error -/
def FirstAt {E : Type} (os : Nat → WOut E) (i : Nat) : Prop := (∀ j < i, ∃ f, os j = .perm f)

theorem writeAttempts_spec {E : Type} (os : Nat → WOut E) (data : Bytes) : ∀ n k f,
    ((writeAttempts os data n k f).1 = true ↔ ∃ i, k ≤ i ∧ i < k + n ∧ os i = .ok ∧ ∀ j, k ≤ j → j < i → ∃ g, os j = .perm g) ∧
    ((writeAttempts os data n k f).1 = true → (writeAttempts os data n k f).2.1 = some data) ∧
    (writeAttempts os data n k f).2.2 ≤ k + n
  | 0, k, f => by
    refine ⟨⟨fun h => by simp [writeAttempts] at h, ?_⟩, fun h => by simp [writeAttempts] at h, by simp [writeAttempts]⟩
    rintro ⟨i, h1, h2, _⟩; omega
  | n + 1, k, f => by
    rw [writeAttempts]
    cases hk : os k with
    | ok =>
      refine ⟨⟨fun _ => ⟨k, Nat.le_refl _, by omega, hk, fun j h1 h2 => by omega⟩, fun _ => rfl⟩, fun _ => rfl, by simp⟩
    | perm f' =>
      obtain ⟨h1, h2, h3⟩ := writeAttempts_spec os data n (k + 1) f'
      refine ⟨h1.trans ⟨?_, ?_⟩, h2, by simp only; omega⟩
      · rintro ⟨i, e1, e2, e3, e4⟩
        refine ⟨i, by omega, by omega, e3, fun j hj1 hj2 => ?_⟩
        by_cases hj : j = k
        · subst hj; exact ⟨f', hk⟩
        · exact e4 j (by omega) hj2
      · rintro ⟨i, e1, e2, e3, e4⟩
        have : i ≠ k := by rintro rfl; rw [hk] at e3; cases e3
        exact ⟨i, by omega, by omega, e3, fun j hj1 hj2 => e4 j (by omega) hj2⟩
    | other e f' =>
      refine ⟨⟨fun h => (by cases h), ?_⟩, fun h => (by cases h), by simp⟩
      rintro ⟨i, e1, e2, e3, e4⟩
      by_cases hi : i = k
      · subst hi; rw [hk] at e3; cases e3
      · obtain ⟨g, hg⟩ := e4 k (by omega) (by omega)
        rw [hk] at hg; cases hg

/-- **C40, text files.**  Writing succeeds if and only if there is nothing to write, or the directory is made and one of the first three attempts
succeeds after permission errors only.  When it succeeds the file is exactly the data, whatever the failed attempts left; at most three
attempts are made. -/
theorem C40_txt_write {E : Type} (dirs : Nat → Out E) (os : Nat → WOut E) (data before : Option Bytes) :
    ((txtWrite dirs os data before).1 = true ↔ data = none ∨
      ((∃ i < 3, dirs i = .ok ∧ ∀ j < i, dirs j = .perm) ∧ ∃ i < 3, os i = .ok ∧ ∀ j < i, ∃ f, os j = .perm f)) ∧
    (∀ d, data = some d → (txtWrite dirs os data before).1 = true → (txtWrite dirs os data before).2.1 = some d) ∧
    (data = none → (txtWrite dirs os data before).2.1 = before) ∧ (txtWrite dirs os data before).2.2 ≤ 3 := by
  cases data with
  | none => simp [txtWrite]
  | some d =>
    have hm := (C40_makedirs dirs).1
    rw [txtWrite]
    cases hd : (makedirs dirs).1 with
    | done =>
      rw [hd] at hm
      obtain ⟨h1, h2, h3⟩ := writeAttempts_spec os d 3 0 before
      simp only [Nat.zero_add, Nat.zero_le, true_and, forall_const] at h1 h3
      refine ⟨?_, ?_, by simp, h3⟩
      · simp only [h1, reduceCtorEq, false_or, ← hm, true_and]
      · intro d' hd'; cases hd'; exact h2
    | perm =>
      rw [hd] at hm
      simp only [reduceCtorEq, false_iff] at hm
      simp [hm]
    | other e =>
      rw [hd] at hm
      simp only [reduceCtorEq, false_iff] at hm
      simp [hm]

example : (makedirs (E := Unit) (fun i => if i < 2 then .perm else .ok)).1 = .done ∧
    (txtWrite (E := Unit) (fun _ => .ok) (fun i => if i = 0 then .perm (some []) else .ok) (some [1]) none).2.1 = some [1] := ⟨rfl, rfl⟩

/-- **C40, what a failure leaves**: an error that is not a permission error leaves whatever the failed write left, so a text that
cannot be encoded empties a file that was there. -/
theorem C40_failed_write_truncates {E : Type} (e : E) (d old : Bytes) :
    txtWrite (fun _ => .ok) (fun _ => .other e (some [])) (some d) (some old) = (false, some [], 1) := rfl

/-! ## C41 -/

/-- the calls that the products call for, in order -/
def jobsOf {O : Type} (opts : Text → Option O → Option O) (ps : List (Text × Params O)) : List (Job O) :=
  ps.filterMap (fun (n, q) => if q.disable then none else match q.src, q.bin with
    | some s, some b => some ⟨n, s, b, q.temp, q.index, opts n q.options⟩
    | _, _ => none)

/-- every product that is not disabled names its two paths -/
def Complete {O : Type} (ps : List (Text × Params O)) : Prop := ∀ p ∈ ps, p.2.disable = false → p.2.src.isSome ∧ p.2.bin.isSome

/-- **C41.**  Without a product code, when every product is complete and every call succeeds, the calls are exactly those of the products that
are not disabled, in order, each once. -/
theorem C41_all {O : Type} (opts : Text → Option O → Option O) (run : Job O → Bool) (ps : List (Text × Params O)) (hc : Complete ps) :
    (runProducts opts run ps).2 = true ↔ ∀ j ∈ jobsOf opts ps, run j = true := by
  induction ps with
  | nil => simp [runProducts, jobsOf]
  | cons p r ih =>
    obtain ⟨n, q⟩ := p
    have ih := ih (fun p hp => hc p (List.mem_cons_of_mem _ hp))
    rw [runProducts]
    by_cases hd : q.disable = true
    · rw [if_pos hd, ih, jobsOf, jobsOf, List.filterMap_cons]
      simp [hd]
    · rw [if_neg hd]
      obtain ⟨h1, h2⟩ := hc (n, q) List.mem_cons_self (by simpa using hd)
      obtain ⟨s, hs⟩ := Option.isSome_iff_exists.mp h1
      obtain ⟨b, hb⟩ := Option.isSome_iff_exists.mp h2
      simp only at hs hb
      have hj : jobsOf opts ((n, q) :: r) = ⟨n, s, b, q.temp, q.index, opts n q.options⟩ :: jobsOf opts r := by
        rw [jobsOf, List.filterMap_cons]
        simp [hd, hs, hb, jobsOf]
      rw [hj]
      simp only [hs, hb, List.forall_mem_cons]
      by_cases hr : run ⟨n, s, b, q.temp, q.index, opts n q.options⟩ = true
      · rw [if_pos hr, ← ih]; simp [hr]
      · rw [if_neg hr]; simp [hr]

/-- **C41, calls.**  The calls made are those of the enabled products in order, up to and including the first one that fails; nothing runs after a
failure. -/
theorem C41_calls {O : Type} (opts : Text → Option O → Option O) (run : Job O → Bool) (ps : List (Text × Params O)) (hc : Complete ps) :
    ((runProducts opts run ps).2 = true → (runProducts opts run ps).1 = jobsOf opts ps) ∧
    ((runProducts opts run ps).2 = false → ∃ done j rest, jobsOf opts ps = done ++ j :: rest ∧ (∀ x ∈ done, run x = true) ∧
      run j = false ∧ (runProducts opts run ps).1 = done ++ [j]) := by
  induction ps with
  | nil => simp [runProducts, jobsOf]
  | cons p r ih =>
    obtain ⟨n, q⟩ := p
    have ih := ih (fun p hp => hc p (List.mem_cons_of_mem _ hp))
    rw [runProducts]
    by_cases hd : q.disable = true
    · rw [if_pos hd]
      have : jobsOf opts ((n, q) :: r) = jobsOf opts r := by
        rw [jobsOf, jobsOf, List.filterMap_cons]; simp [hd]
      rw [this]; exact ih
    · rw [if_neg hd]
      obtain ⟨h1, h2⟩ := hc (n, q) List.mem_cons_self (by simpa using hd)
      obtain ⟨s, hs⟩ := Option.isSome_iff_exists.mp h1
      obtain ⟨b, hb⟩ := Option.isSome_iff_exists.mp h2
      simp only at hs hb
      have hj : jobsOf opts ((n, q) :: r) = ⟨n, s, b, q.temp, q.index, opts n q.options⟩ :: jobsOf opts r := by
        rw [jobsOf, List.filterMap_cons]
        simp [hd, hs, hb, jobsOf]
      rw [hj]
      simp only [hs, hb]
      by_cases hr : run ⟨n, s, b, q.temp, q.index, opts n q.options⟩ = true
      · rw [if_pos hr]
        refine ⟨fun h => by rw [ih.1 h], fun h => ?_⟩
        obtain ⟨d, j, rest, e1, e2, e3, e4⟩ := ih.2 h
        exact ⟨_ :: d, j, rest, by rw [e1]; rfl, by
          intro x hx
          rcases List.mem_cons.mp hx with rfl | hx
          · exact hr
          · exact e2 x hx, e3, by rw [e4]; rfl⟩
      · rw [if_neg hr]
        refine ⟨fun h => (by cases h), fun _ => ⟨[], _, _, rfl, by simp, by simpa using hr, rfl⟩⟩

/-- **C41, product code.**  With a product code exactly that product is processed, even when it is disabled; a code that is not in the table
makes no call and is an error. -/
theorem C41_code {O : Type} (opts : Text → Option O → Option O) (run : Job O → Bool) (ps : List (Text × Params O)) (c : Text) (hc : c ≠ []) :
    (∀ q s b, ps.lookup c = some q → q.src = some s → q.bin = some b →
      runAll opts run ps (some c) = ([⟨c, s, b, q.temp, q.index, opts c q.options⟩], run ⟨c, s, b, q.temp, q.index, opts c q.options⟩)) ∧
    (ps.lookup c = none → runAll opts run ps (some c) = ([], false)) := by
  have hsel : selectProducts ps (some c) = (ps.lookup c).map (fun q => [(c, { q with disable := false })]) := by
    cases c with
    | nil => exact absurd rfl hc
    | cons x y => rfl
  constructor
  · intro q s b hq hs hb
    rw [runAll, hsel, hq]
    simp only [Option.map_some, runProducts, hs, hb, Bool.false_eq_true, if_false]
    cases run ⟨c, s, b, q.temp, q.index, opts c q.options⟩ <;> rfl
  · intro hq
    rw [runAll, hsel, hq]; rfl

/-- **C41, no product code**: the whole table -/
theorem C41_no_code {O : Type} (opts : Text → Option O → Option O) (run : Job O → Bool) (ps : List (Text × Params O)) :
    runAll opts run ps none = runProducts opts run ps := rfl

/-- a product that is not complete is an error before its call; the products before it have been processed -/
theorem C41_incomplete {O : Type} (opts : Text → Option O → Option O) (run : Job O → Bool) (n : Text) (q : Params O) (r : List (Text × Params O))
    (hd : q.disable = false) (h : q.src = none ∨ q.bin = none) : runProducts opts run ((n, q) :: r) = ([], false) := by
  rw [runProducts, if_neg (by simp [hd])]
  rcases h with h | h
  · simp [h]
  · cases hs : q.src <;> simp [h]

example : let q : Params Nat := ⟨false, some ['s'], some ['b'], none, none, none⟩
    let q2 : Params Nat := ⟨true, some ['s'], some ['c'], none, none, none⟩
    Complete [(['x'], q), (['y'], q2)] ∧ (runAll (fun _ o => o) (fun _ => true) [(['x'], q), (['y'], q2)] none).1.length = 1 ∧
    ([(['x'], q), (['y'], q2)] : List (Text × Params Nat)).lookup ['y'] = some q2 := by
  refine ⟨?_, rfl, rfl⟩
  intro p hp _
  simp only [List.mem_cons, List.not_mem_nil, or_false] at hp
  rcases hp with rfl | rfl <;> exact ⟨rfl, rfl⟩

/-! ## C43 -/

/-- **C43, table.**  The table of digests: the number of files, then for every stored file except configinfo, each once and in the order of
names, its quoted name and the digest of its bytes. -/
theorem C43_table (digest : Bytes → Text) (files : List (Text × Bytes)) :
    ∃ kept : List (Text × Bytes), kept.Perm (files.filter (fun f => decide (f.1 ≠ configinfoName))) ∧
      kept.Pairwise (fun a b => textLe a.1 b.1 = true) ∧
      versionsList digest files = Val.str (showNat kept.length) ::
        kept.flatMap (fun f => [Val.str ('"' :: f.1 ++ ['"']), Val.str (digest f.2)]) := by
  refine ⟨(sortBy Prod.fst files).filter (fun f => decide (f.1 ≠ configinfoName)), ?_, ?_, ?_⟩
  · exact (sortBy_perm Prod.fst files).filter _
  · exact (sortBy_sorted Prod.fst files).sublist List.filter_sublist
  · rw [versionsList, Nat.mul_div_cancel_left _ (by omega)]

/-- **C43, order.**  The table does not depend on the order in which the system lists the directory. -/
theorem C43_listing_order (digest : Bytes → Text) (files files' : List (Text × Bytes)) (h : files.Perm files')
    (hn : (files.map Prod.fst).Nodup) : versionsList digest files = versionsList digest files' := by
  rw [versionsList, versionsList, sortBy_congr Prod.fst h hn]

theorem placeholder_brace (k : Nat) (h0 : 0 < k) : placeholder[k]? ≠ some '{' := by
  by_cases h : k < 18
  · have : ∀ k < 18, 0 < k → placeholder[k]? ≠ some '{' := by decide
    exact this k h h0
  · have : placeholder[k]? = none := List.getElem?_eq_none (by have : placeholder.length = 18 := by decide
                                                               omega)
    rw [this]; simp

theorem placeholder_cons : placeholder = '{' :: placeholder.drop 1 := by decide

/-- no placeholder begins inside a text without one, even when one follows -/
theorem replace_skip (new : Text) : ∀ (pre post : Text) (n : Nat), ¬ placeholder <:+: pre →
    replaceAll placeholder new (n + pre.length) (pre ++ (placeholder ++ post)) = pre ++ replaceAll placeholder new n (placeholder ++ post)
  | [], post, n, _ => by simp
  | c :: pre, post, n, h => by
    have ih := replace_skip new pre post n (fun hh => h (hh.trans (List.suffix_cons c pre).isInfix))
    rw [List.length_cons, ← Nat.add_assoc, List.cons_append, replaceAll]
    have hno : ¬ Str.starts placeholder (c :: (pre ++ (placeholder ++ post))) = true := by
      intro hs
      rw [Str.starts, List.isPrefixOf_iff_prefix] at hs
      by_cases hl : placeholder.length ≤ (c :: pre).length
      · apply h
        have h2 : (c :: pre) <+: c :: (pre ++ (placeholder ++ post)) := ⟨placeholder ++ post, rfl⟩
        exact (List.prefix_of_prefix_length_le hs h2 hl).isInfix
      · obtain ⟨t, ht⟩ := hs
        have h1 : (placeholder ++ t)[(c :: pre).length]? = some '{' := by
          rw [ht, ← List.cons_append, List.getElem?_append_right (Nat.le_refl _), Nat.sub_self, placeholder_cons]; rfl
        rw [List.getElem?_append_left (by omega)] at h1
        exact placeholder_brace _ (by simp) h1
    rw [if_neg hno, ih]; rfl

theorem replace_none (new : Text) : ∀ (t : Text) (n : Nat), ¬ placeholder <:+: t → replaceAll placeholder new n t = t
  | t, 0, _ => rfl
  | [], n + 1, _ => rfl
  | c :: t, n + 1, h => by
    rw [replaceAll, if_neg, replace_none new t n (fun hh => h (hh.trans (List.suffix_cons c t).isInfix))]
    intro hs
    rw [Str.starts, List.isPrefixOf_iff_prefix] at hs
    exact h hs.isInfix

theorem replace_one (new pre post : Text) (h1 : ¬ placeholder <:+: pre) (h2 : ¬ placeholder <:+: post) :
    replaceAll placeholder new (pre ++ (placeholder ++ post)).length (pre ++ (placeholder ++ post)) = pre ++ new ++ post := by
  have hl : (pre ++ (placeholder ++ post)).length = (placeholder ++ post).length + pre.length := by
    rw [List.length_append, Nat.add_comm]
  rw [hl, replace_skip new pre post _ h1, List.append_assoc]
  congr 1
  have hn : (placeholder ++ post).length = (17 + post.length) + 1 := by
    rw [List.length_append]
    have : placeholder.length = 18 := by decide
    omega
  rw [hn]
  have hc : placeholder ++ post = '{' :: (placeholder.drop 1 ++ post) := by
    rw [← List.cons_append, ← placeholder_cons]
  rw [hc, replaceAll, if_pos, ← hc, List.drop_left, replace_none new post _ h2]
  rw [← hc, Str.starts, List.isPrefixOf_iff_prefix]
  exact ⟨post, rfl⟩

/-- **C43, configinfo, partial.**  In a description with one placeholder the placeholder is replaced by the table, provided the table is not
shorter than the placeholder.  Missing: see C43_stale_tail. -/
theorem C43_configinfo_partial (digest : Bytes → Text) (files : List (Text × Bytes)) (pre post : Text)
    (hc : ∃ f ∈ files, f.1 = configinfoName) (h1 : ¬ placeholder <:+: pre) (h2 : ¬ placeholder <:+: post)
    (hlen : 18 ≤ (encRoot [versionsList digest files]).length) :
    calcSha1 digest files (pre ++ (placeholder ++ post)) = some (pre ++ encRoot [versionsList digest files] ++ post) := by
  have ha : files.any (fun f => decide (f.1 = configinfoName)) = true := by
    rw [List.any_eq_true]
    obtain ⟨f, hf, he⟩ := hc
    exact ⟨f, hf, by simpa using he⟩
  rw [calcSha1, if_pos ha]
  simp only
  rw [replace_one _ _ _ h1 h2, overwrite, List.drop_eq_nil_of_le, List.append_nil]
  have : placeholder.length = 18 := by decide
  simp only [List.length_append]
  omega

theorem encElems_mem (sep e : Text) : ∀ l : List Val, Val.str e ∈ l → (encStr sep e).length ≤ (encElems sep l).length
  | [], h => by cases h
  | [v], h => by
    simp only [List.mem_cons, List.not_mem_nil, or_false] at h
    subst h
    simp [encElems, encVal]
  | v :: w :: r, h => by
    rw [encElems, List.length_append, List.length_cons]
    rcases List.mem_cons.mp h with rfl | h
    · rw [encVal]; omega
    · have := encElems_mem sep e (w :: r) h
      omega

/-- **C43, configinfo.**  With at least one other file, and digests of 28 base64 characters (SHA-1), the table takes the place of the placeholder and
nothing else changes. -/
theorem C43_configinfo (digest : Bytes → Text) (files : List (Text × Bytes)) (pre post : Text) (f : Text × Bytes)
    (hc : ∃ f ∈ files, f.1 = configinfoName) (hf : f ∈ files) (hf2 : f.1 ≠ configinfoName)
    (hd : (digest f.2).length = 28) (hx : '#' ∉ digest f.2)
    (h1 : ¬ placeholder <:+: pre) (h2 : ¬ placeholder <:+: post) :
    calcSha1 digest files (pre ++ (placeholder ++ post)) = some (pre ++ encRoot [versionsList digest files] ++ post) := by
  apply C43_configinfo_partial digest files pre post hc h1 h2
  obtain ⟨kept, hp, _, he⟩ := C43_table digest files
  have hm : Val.str (digest f.2) ∈ versionsList digest files := by
    rw [he]
    refine List.mem_cons_of_mem _ (List.mem_flatMap.mpr ⟨f, ?_, by simp⟩)
    rw [hp.mem_iff, List.mem_filter]
    exact ⟨hf, by simpa using hf2⟩
  have hl := encElems_mem ['\r', '\n'] _ _ hm
  have hs : encStr ['\r', '\n'] (digest f.2) = digest f.2 := by
    have ha : ("#base64:".toList.isPrefixOf (digest f.2)) = false := by
      rw [Bool.eq_false_iff, ne_eq, List.isPrefixOf_iff_prefix]
      intro hh; exact hx (hh.subset (by decide))
    have hb : ("##base64:".toList.isPrefixOf (digest f.2)) = false := by
      rw [Bool.eq_false_iff, ne_eq, List.isPrefixOf_iff_prefix]
      intro hh; exact hx (hh.subset (by decide))
    rw [encStr, ha, hb, hd]
    rfl
  rw [hs, hd] at hl
  rw [encRoot, encRootWith, encObject, List.length_append, List.length_cons]
  omega

/-- **C43 is false of the code when the table is shorter than the placeholder** (no file besides configinfo): the end of the old text
stays behind the new one. -/
theorem C43_stale_tail (digest : Bytes → Text) (b : Bytes) :
    calcSha1 digest [(configinfoName, b)] "{1},\n{____versions____}".toList = some "{1},\n{0}__versions____}".toList := by
  have h : versionsList digest [(configinfoName, b)] = [.str ['0']] := by
    have h0 : (sortBy Prod.fst [(configinfoName, b)]).filter (fun f => decide (f.1 ≠ configinfoName)) = [] := by
      simp [sortBy, insertBy]
    rw [versionsList, h0, List.flatMap_nil]
    decide +kernel
  have ha : [(configinfoName, b)].any (fun f => decide (f.1 = configinfoName)) = true := by simp
  rw [calcSha1, if_pos ha, h]
  decide +kernel

set_option maxRecDepth 8000 in
example : calcSha1 (fun _ => "2jmj7l5rSw0yVb/vlWAYkK/YBwk=".toList) [("b".toList, [1]), (configinfoName, []), ("a".toList, [])]
    "{{0},\n{____versions____}\n}".toList =
    some "{{0},\n{2,\"a\",2jmj7l5rSw0yVb/vlWAYkK/YBwk=,\"b\",2jmj7l5rSw0yVb/vlWAYkK/YBwk=}\n}".toList := by decide +kernel

/-! ## C44 -/

/-- the last word of a text: what is behind its last space -/
def LastWord (c e : Text) : Prop := ' ' ∉ e ∧ (c = e ∨ ∃ pre, c = pre ++ ' ' :: e)

theorem lastWord_iff (c e : Text) : (Str.split ' ' c).getLast? = some e ↔ LastWord c e := by
  constructor
  · intro h
    have hj := Str.join_split ' ' c
    have hm := Str.split_mem ' ' c
    obtain ⟨l, hl⟩ := List.getLast?_eq_some_iff.mp h
    refine ⟨hm e (by rw [hl]; simp), ?_⟩
    rw [hl] at hj
    clear hm h hl
    induction l generalizing c with
    | nil => left; rw [← hj]; rfl
    | cons a r ih =>
      right
      cases r with
      | nil => exact ⟨a, by rw [← hj]; simp [Str.join]⟩
      | cons b s =>
        have hj' : Str.join ' ' (a :: b :: s ++ [e]) = a ++ ' ' :: Str.join ' ' (b :: s ++ [e]) := by
          simp [Str.join]
        rcases ih _ rfl with h | ⟨pre, h⟩
        · exact ⟨a, by rw [← hj, hj', h]⟩
        · exact ⟨a ++ ' ' :: pre, by rw [← hj, hj', h]; simp⟩
  · rintro ⟨hs, rfl | ⟨pre, rfl⟩⟩
    · rw [Str.split_clean _ _ hs]; rfl
    · have hj := Str.join_split ' ' pre
      have hm := Str.split_mem ' ' pre
      have hne := Str.split_ne ' ' pre
      have key : Str.split ' ' (pre ++ ' ' :: e) = Str.split ' ' pre ++ [e] := by
        have h2 : Str.join ' ' (Str.split ' ' pre ++ [e]) = pre ++ ' ' :: e := by
          conv => rhs; rw [← hj]
          generalize Str.split ' ' pre = l at hne
          clear hm hj
          induction l with
          | nil => exact absurd rfl hne
          | cons a r ih =>
            cases r with
            | nil => simp [Str.join]
            | cons b s =>
              have := ih (by simp)
              simp only [List.cons_append] at this ⊢
              rw [Str.join, this, Str.join]
              simp
        rw [← h2, Str.split_join]
        · simp
        · intro p hp
          rcases List.mem_append.mp hp with hp | hp
          · exact hm p hp
          · simp only [List.mem_cons, List.not_mem_nil, or_false] at hp
            rw [hp]; exact hs
      rw [key]; simp

theorem lastWord_unique {c e e' : Text} (h : LastWord c e) (h' : LastWord c e') : e = e' := by
  rw [← lastWord_iff] at h h'
  rw [h] at h'
  exact Option.some.inj h'

theorem lastWord_exists (c : Text) : ∃ e, LastWord c e := by
  cases h : (Str.split ' ' c).getLast? with
  | none => rw [List.getLast?_eq_none_iff] at h; exact absurd h (Str.split_ne _ _)
  | some e => exact ⟨e, (lastWord_iff _ _).mp h⟩

/-- **C44.**  The extension of an embedded file is the last word of the comment (without blanks at its ends) if that word has one to five
characters, all of them letters or digits; otherwise it is `bin`. -/
theorem C44_extension (alnum : Char → Bool) (comment e : Text) : extension alnum comment = e ↔
    ∃ w, LastWord (Str.strip comment) w ∧
      e = if 1 ≤ w.length ∧ w.length ≤ 5 ∧ (∀ c ∈ w, alnum c = true) then w else "bin".toList := by
  obtain ⟨w, hw⟩ := lastWord_exists (Str.strip comment)
  have huniq : (∃ w', LastWord (Str.strip comment) w' ∧
      e = if 1 ≤ w'.length ∧ w'.length ≤ 5 ∧ (∀ c ∈ w', alnum c = true) then w' else "bin".toList) ↔
      e = if 1 ≤ w.length ∧ w.length ≤ 5 ∧ (∀ c ∈ w, alnum c = true) then w else "bin".toList := by
    constructor
    · rintro ⟨w', h, he⟩
      rw [lastWord_unique h hw] at he
      exact he
    · intro h; exact ⟨w, hw, h⟩
  rw [huniq, extension]
  by_cases hc : Str.strip comment = []
  · rw [if_pos hc]
    have : w = [] := by
      rw [hc] at hw
      obtain ⟨_, h | ⟨pre, h⟩⟩ := hw
      · exact h.symm
      · simp at h
    subst this
    rw [if_neg (by simp)]
    exact eq_comm
  · rw [if_neg hc, (lastWord_iff _ _).mpr hw]
    simp only
    have hiff : (w.length < 6 ∧ w ≠ [] ∧ w.all alnum = true) ↔ (1 ≤ w.length ∧ w.length ≤ 5 ∧ ∀ c ∈ w, alnum c = true) := by
      rw [List.all_eq_true, ← List.length_pos_iff]
      constructor
      · rintro ⟨h1, h2, h3⟩; exact ⟨by omega, by omega, h3⟩
      · rintro ⟨h1, h2, h3⟩; exact ⟨by omega, by omega, h3⟩
    by_cases h : w.length < 6 ∧ w ≠ [] ∧ w.all alnum = true
    · rw [if_pos h, if_pos (hiff.mp h)]; exact eq_comm
    · rw [if_neg h, if_neg (fun hh => h (hiff.mpr hh))]; exact eq_comm

/-- **C44, consequence.**  The extension is never empty, has at most five characters, and has no dot, slash or blank, if these are
not letters or digits: the file stays in the directory of its object. -/
theorem C44_safe (alnum : Char → Bool) (comment : Text) (hb : ∀ c ∈ "bin".toList, alnum c = true) :
    1 ≤ (extension alnum comment).length ∧ (extension alnum comment).length ≤ 5 ∧ ∀ c ∈ extension alnum comment, alnum c = true := by
  obtain ⟨w, _, h⟩ := (C44_extension alnum comment _).mp rfl
  rw [h]
  by_cases hc : 1 ≤ w.length ∧ w.length ≤ 5 ∧ ∀ c ∈ w, alnum c = true
  · rw [if_pos hc]; exact hc
  · rw [if_neg hc]; exact ⟨by decide, by decide, hb⟩

example : extension Char.isAlphanum "Логотип png ".toList = "png".toList ∧ extension Char.isAlphanum "картинка".toList = "bin".toList ∧
    extension Char.isAlphanum "a.png".toList = "bin".toList := by decide +kernel

/-- **C44, collision.**  The extension `json` gives the embedded file the name of the description of the object itself
(`<class>.json`, /repo/src/v8unpack/MetaDataObject/__init__.py:90), which is written afterwards. -/
theorem C44_json_collision (alnum : Char → Bool) (ha : ∀ c ∈ "json".toList, alnum c = true) (cls : Text) :
    cls ++ '.' :: extension alnum "json".toList = cls ++ ".json".toList := by
  have : extension alnum "json".toList = "json".toList := by
    rw [C44_extension]
    refine ⟨"json".toList, by rw [← lastWord_iff]; decide +kernel, ?_⟩
    rw [if_pos ⟨by decide, by decide, ha⟩]
  rw [this]; rfl

end V8.Misc
