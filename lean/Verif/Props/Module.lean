import Verif.ModuleLemmas
import Verif.Props.Brace
/-
Property theorems C28, C29, C34, C37, C49, C50 about the model Verif/Module.lean (module code, quoting, encodings).
-/
namespace V8.Module
open V8.Enc V8.Brace

/-! ## C28 -/

/-- **C28, source side, partial.**  A source text is what extraction gives after a build if and only if it has no line (the first
apart) that begins with the marker `// v8unpack ` and one of the characters `#`, `|`, `&`.  Missing: texts with such a line. -/
theorem C28_build_extract_partial (s : Text) : uncomment (comment s) = s ↔ Clean s := by
  rw [uncomment_comment, uncomment_eq_iff]

/-- **C28, stored side, partial.**  The code stored in the configuration is what a build gives after extraction if and only if its lines
(the first apart) have no bare directive and the marker only before one of the four directives. -/
theorem C28_extract_build_partial (c : Text) : comment (uncomment c) = c ↔ StoredForm c := comment_uncomment_iff c

/-- **C28, stability.**  Whatever the stored code is, the sources extracted from it stay the same through any further
build and extraction. -/
theorem C28_sources_stable (c : Text) : uncomment (comment (uncomment c)) = uncomment c := by
  rw [uncomment_comment, uncomment_idem]

example : Clean "// v8unpack #Область\nА = 1;\n#Область Имя\n&НаСервере\n #Область\n// v8unpack x\n#КонецОбласти".toList ∧
    comment "А = 1;\n#Область Имя\n&НаСервере\n".toList = "А = 1;\n// v8unpack #Область Имя\n// v8unpack &НаСервере\n".toList ∧
    StoredForm "А = 1;\n// v8unpack #Область Имя\n// v8unpack &НаСервере\n#Если\n".toList := by
  refine ⟨?_, by decide +kernel, ?_⟩
  · rw [← uncomment_eq_iff]; decide +kernel
  · rw [← comment_uncomment_iff]; decide +kernel

/-- **C28 is false of the code for bare directives in stored code**: a build comments them out although they were not. -/
theorem C28_bare_directive_commented :
    comment (uncomment "А;\n#Область Б\n".toList) = "А;\n// v8unpack #Область Б\n".toList := by decide +kernel

/-- **C28 is false of the code for other directives behind the marker**: extraction takes the marker off, a build does not put it back. -/
theorem C28_other_directive_lost (r : Text) (h : atDirective ('#' :: r) = false) (hn : '\n' ∉ r) :
    comment (uncomment ('\n' :: marker ++ '#' :: r)) = '\n' :: '#' :: r := by
  have h1 : atMarked (marker ++ '#' :: r) = true := (atMarked_iff _).mpr ⟨'#', .inl rfl, ⟨r, by simp⟩⟩
  have h2 : ∀ t : Text, '\n' ∉ t → uncomment t = t := by
    intro t ht
    rw [uncomment_eq_iff]
    intro c _ hi
    exact ht (hi.subset (by simp))
  have hn2 : '\n' ∉ '#' :: r := by
    rw [List.mem_cons, not_or]; exact ⟨by decide, hn⟩
  rw [List.cons_append, uncomment, if_pos ⟨rfl, h1⟩, List.drop_left, h2 _ hn2, comment, if_neg (fun hh => by rw [h] at hh; cases hh.2)]
  have := comment_noline ('#' :: r) [] hn2
  rw [List.append_nil] at this
  rw [this, comment, List.append_nil]

example : atDirective "#Если Сервер Тогда".toList = false := by decide +kernel

/-! ## C29 -/

/-- **C29.**  Code put into a form file comes out unchanged. -/
theorem C29_code_back (s : Text) : formCodeOut (formCodeIn s) = s := by
  rw [formCodeOut, formCodeIn, strDecode_strEncode, undouble_double]

theorem formCodeIn_quoted (s : Text) : formCodeIn s = quoted s := rfl

/-- **C29.**  A value of a form file goes out as code and back unchanged if and only if it is a string literal. -/
theorem C29_value_back_iff (tok : Text) : formCodeIn (formCodeOut tok) = tok ↔ ∃ s, tok = quoted s := by
  constructor
  · intro h; exact ⟨formCodeOut tok, h.symm⟩
  · rintro ⟨s, rfl⟩
    rw [← formCodeIn_quoted, C29_code_back]

/-- **C29, whole form.**  Extraction takes the code out of a form (`getset` with a placeholder `m`); a build with the unchanged module
gives the form exactly as it was, if the code was a string literal or the form has no place for code. -/
theorem C29_form_rebuilt (form form' : List (List Val)) (m tok : Text) (h : getset form m = .ok (tok, form'))
    (hq : (∃ s, tok = quoted s) ∨ ∀ x, getset form x = .ok ([], form)) :
    ∃ m', getset form' (formCodeIn (formCodeOut tok)) = .ok (m', form) := by
  rcases hq with hq | hq
  · obtain ⟨m', h1, _⟩ := getset_getset form m tok form' h
    exact ⟨m', by rw [(C29_value_back_iff tok).mpr hq]; exact h1⟩
  · rw [hq m] at h
    cases h
    exact ⟨[], hq _⟩

/-- **C29, edited module.**  With any other code `s'` in the module file the build succeeds, and extracting the built form gives `s'`. -/
theorem C29_edited_code (form form' : List (List Val)) (m s : Text) (hm : m ≠ []) (h : getset form m = .ok (quoted s, form')) (s' : Text) :
    ∃ form'', getset form' (formCodeIn s') = .ok (m, form'') ∧
      ∃ tok, getset form'' m = .ok (tok, form') ∧ formCodeOut tok = s' := by
  obtain ⟨m', h1, h2⟩ := getset_getset form m (quoted s) form' h
  have hm' : m' = m := by
    rcases h2 with h2 | ⟨h2, _⟩
    · exact h2
    · cases h2
  subst hm'
  obtain ⟨form'', h3⟩ := getset_any form' (quoted s) (formCodeIn s') m' form h1
  refine ⟨form'', h3, ?_⟩
  obtain ⟨t, h4, h5⟩ := getset_getset form' (formCodeIn s') m' form'' h3
  rcases h5 with rfl | ⟨h5, _⟩
  · exact ⟨_, h4, C29_code_back s'⟩
  · exact absurd h5 hm

/-- a managed form with the code in place, and one with the code in the last list -/
example :
    let code := quoted "Сообщить(\"да\");".toList
    getset [[.str ['4'], .list [.str ['1']], .str code, .str ['5']]] ['x'] =
      .ok (code, [[.str ['4'], .list [.str ['1']], .str ['x'], .str ['5']]]) ∧
    getset [[.str ['1'], .list ((.str ['2', '2'] :: List.replicate 5 (.str ['7'])) ++ .str code :: List.replicate 7 (.str ['0']))]] ['x'] =
      .ok (code, [[.str ['1'], .list ((.str ['2', '2'] :: List.replicate 5 (.str ['7'])) ++ .str ['x'] :: List.replicate 7 (.str ['0']))]]) := by
  decide +kernel

/-- **C29 is false of the code for values that are not literals**: such a value is replaced by another one. -/
theorem C29_raw_value_changed (form form' : List (List Val)) (m tok : Text) (h : getset form m = .ok (tok, form'))
    (hm : m ≠ []) (hr : ¬ ∃ s, tok = quoted s) (hs : tok ≠ []) :
    ∀ m' f, getset form' (formCodeIn (formCodeOut tok)) = .ok (m', f) → f ≠ form := by
  intro m' f h1 hf
  subst hf
  obtain ⟨q, g1, g2⟩ := getset_getset form' _ m' f h1
  obtain ⟨q2, g3, g4⟩ := getset_getset f m tok form' h
  have e1 : q2 = m := by
    rcases g4 with g4 | ⟨g4, _⟩
    · exact g4
    · exact absurd g4 hs
  subst e1
  obtain ⟨f1, h2⟩ := getset_any form' tok (formCodeIn (formCodeOut tok)) q2 f g3
  rw [h1] at h2
  cases h2
  rw [h] at g1
  cases g1
  rcases g2 with g2 | ⟨g2, _⟩
  · exact hr ⟨formCodeOut tok, g2⟩
  · exact hm g2

example : getset [[.str ['3'], .str ['1'], .str ['7']]] ['x'] = .ok (['7'], [[.str ['3'], .str ['1'], .str ['x']]]) ∧
    ¬ ∃ s, ['7'] = quoted s := by
  refine ⟨by decide +kernel, ?_⟩
  rintro ⟨s, hs⟩
  have : (quoted s).head? = some '"' := rfl
  rw [← hs] at this
  cases this

/-! ## C34 -/

/-- **C34.**  Quoting and unquoting gives every text back. -/
theorem C34_unquote_quote (s : Text) : strDecode (strEncode s) = s := strDecode_strEncode s

/-- **C34.**  A value is given back by unquoting and quoting if and only if it stands in quotes; in particular every literal of a 1C
file is, whatever quotes it has inside. -/
theorem C34_quote_unquote_iff (t : Text) : strEncode (strDecode t) = t ↔ ∃ s, t = '"' :: s ++ ['"'] := by
  constructor
  · intro h; exact ⟨strDecode t, h.symm⟩
  · rintro ⟨s, rfl⟩
    rw [show '"' :: s ++ ['"'] = strEncode s from rfl, strDecode_strEncode]

theorem C34_literal_kept (s : Text) : strEncode (strDecode (quoted s)) = quoted s :=
  (C34_quote_unquote_iff _).mpr ⟨_, rfl⟩

/-- **C34, through the file, partial.**  A short name without quotes written in quotes is read back from the brace file as the same
name.  Missing: names with quotes, see below, and long ones (C11). -/
theorem C34_name_in_file_partial (win : Bool) (s : Text) (hq : '"' ∉ s) (hr : '\r' ∉ s) (hl : s.length ≤ 62) :
    writeRead win [[.str (strEncode s)]] = .ok [[.str (strEncode s)]] := by
  have e : strEncode s = quoted s := by
    rw [strEncode, quoted_eq, esc_id s hq]
  rw [e]
  apply C11_strings_survive_partial win s hr
  left
  rw [← e]
  simp [strEncode]
  omega

example : '"' ∉ "Справочник Номенклатура".toList ∧ '\r' ∉ "Справочник Номенклатура".toList := by decide +kernel

/-- **C34 is false of the code for a name with a quote**: str_encode does not double it, and the file is not read back. -/
theorem C34_quote_not_doubled :
    (match writeRead false [[.str (strEncode "a\"b".toList), .str ['1']]] with | .ok _ => false | .error _ => true) = true := by decide +kernel

/-! ## C37 -/

/-- **C37.**  Exactly what the encoding of a file is taken to be, from its first bytes: the mark of UTF-32 (little endian) is told
from that of UTF-16, which it begins with; any other file has the default. -/
theorem C37_detect (file : Bytes) : detectByBom file =
    if [0xEF, 0xBB, 0xBF] <+: file then some .utf8sig
    else if [0xFF, 0xFE, 0, 0] <+: file ∨ [0, 0, 0xFE, 0xFF] <+: file then some .utf32
    else if [0xFF, 0xFE] <+: file ∨ [0xFE, 0xFF] <+: file then some .utf16
    else none := detectByBom_eq file

/-- **C37.**  On any UTF-8 text the mark is recognised if and only if the text begins with it, and never as another encoding. -/
theorem C37_utf8 (t : Text) : detectByBom (utf8 t) = if t.head? = some bom then some .utf8sig else none := detectByBom_utf8 t

/-- **C37.**  A module is read as UTF-8 if it is UTF-8, else as windows-1251 if it is that, else as bytes; the encoding recorded is
one of utf-8, utf-8-sig, windows-1251, bin. -/
theorem C37_module_encoding (cd : Bool) (b : Bytes) :
    (readRaw cd (some b)).2 =
      match utf8Text b, cpText b with
      | some t, _ => if t.head? = some bom then .utf8sig else .utf8
      | none, some _ => .cp1251
      | none, none => .bin := by
  cases h : utf8Text b with
  | some t =>
    obtain rfl := utf8_utf8Text h
    rw [readRaw_utf8]
  | none =>
    rw [readRaw, h]
    cases cpText b <;> rfl

example : detectByBom [0xFF, 0xFE, 0, 0, 0x41] = some .utf32 ∧ detectByBom [0xFF, 0xFE, 0x41, 0] = some .utf16 ∧
    detectByBom [0xEF, 0xBB] = none ∧ utf8Text [0xCF, 0xF0] = none ∧ cpText [0xCF, 0xF0] = some "Пр".toList ∧
    utf8Text [0x98] = none ∧ cpText [0x98] = none := by decide +kernel

/-! ## C49 -/

/-- the file of a module after extraction on any platform and build on this one: what became of its bytes -/
def Rebuilt (win cd : Bool) (b b' : Bytes) : Prop :=
  (∀ w, buildModule win cd (extractModule w cd (.file b)) = some (.file b')) ∧
  ∀ w info image bin, buildModule win cd (extractModule w cd (.dir info (some b) image bin)) = some (.dir info (some b') none none)

/-- **C49.**  A module with UTF-8 text (with or without byte order mark) is rebuilt as UTF-8 (with the mark if it had it), with its
line ends written as on this platform and, for forms and old versions (`cd`), its directives commented out. -/
theorem C49_utf8 (win cd : Bool) (t : Text) : Rebuilt win cd (utf8 t) (utf8 (renewed win cd t)) := by
  constructor
  · intro w
    obtain ⟨code, h1, h2⟩ := module_utf8 w win cd none t
    exact build_file w win cd _ _ code h1 h2
  · intro w info image bin
    obtain ⟨code, h1, h2⟩ := module_utf8 w win cd (some info) t
    exact build_dir w win cd info _ _ image bin code h1 h2

/-- **C49.**  The same for a module in windows-1251. -/
theorem C49_cp1251 (win cd : Bool) (b : Bytes) (t : Text) (h8 : utf8Text b = none) (ht : cpText b = some t) :
    ∃ b', cpBytes (renewed win cd t) = some b' ∧ Rebuilt win cd b b' := by
  obtain ⟨_, b', _, h2, _⟩ := module_cp win win cd none b t h8 ht
  refine ⟨b', h2, ?_, ?_⟩
  · intro w
    obtain ⟨code', b'', g1, g2, g3⟩ := module_cp w win cd none b t h8 ht
    rw [h2] at g2
    cases g2
    exact build_file w win cd _ _ code' g1 g3
  · intro w info image bin
    obtain ⟨code', b'', g1, g2, g3⟩ := module_cp w win cd (some info) b t h8 ht
    rw [h2] at g2
    cases g2
    exact build_dir w win cd info _ _ image bin code' g1 g3

/-- **C49.**  A module in neither encoding is kept byte for byte. -/
theorem C49_binary (win cd : Bool) (b : Bytes) (h8 : utf8Text b = none) (ht : cpText b = none) : Rebuilt win cd b b := by
  constructor
  · intro w
    obtain ⟨h1, h2⟩ := module_bin w win cd none b h8 ht
    exact build_file w win cd _ _ _ h1 h2
  · intro w info image bin
    obtain ⟨h1, h2⟩ := module_bin w win cd (some info) b h8 ht
    exact build_dir w win cd info _ _ image bin _ h1 h2

/-- **C49, the bytes.**  A UTF-8 module is rebuilt byte for byte if and only if its text is unchanged by the conversions. -/
theorem C49_utf8_same_iff (win cd : Bool) (t : Text) : Rebuilt win cd (utf8 t) (utf8 t) ↔ renewed win cd t = t := by
  have h := C49_utf8 win cd t
  constructor
  · intro h2
    have := (h.1 win).symm.trans (h2.1 win)
    simp only [Option.some.injEq, Stored.file.injEq] at this
    exact utf8_inj this
  · intro he; rw [he] at h; exact h

/-- on Unix without directives: exactly the texts without carriage returns -/
theorem C49_unix_iff (t : Text) : renewed false false t = t ↔ '\r' ∉ t := by
  constructor
  · intro h
    rw [← h]
    exact universal_nocr t
  · intro h
    exact universal_osWrite false t h

/-- on Windows without directives: exactly the texts whose line ends are all CR LF -/
theorem C49_windows_iff (t : Text) : renewed true false t = t ↔
    ∃ u : Text, '\r' ∉ u ∧ t = u.flatMap (fun c => if c = '\n' then ['\r', '\n'] else [c]) := by
  constructor
  · intro h
    exact ⟨universal t, universal_nocr t, h.symm⟩
  · rintro ⟨u, hu, rfl⟩
    have := universal_osWrite true u hu
    simp only [osWrite, if_true] at this
    simp only [renewed, Bool.false_eq_true, if_false, this, osWrite, if_true]

/-- with directives: exactly the texts that are so and are in stored form -/
theorem C49_directives_iff (win : Bool) (u : Text) (hu : '\r' ∉ u) :
    renewed win true (osWrite win u) = osWrite win u ↔ StoredForm u := by
  rw [← comment_uncomment_iff]
  simp only [renewed, if_true, universal_osWrite win u hu]
  constructor
  · intro h
    have h2 := congrArg universal h
    rwa [universal_osWrite win _ (comment_nocr _ (fun hm => hu (uncomment_sub _ _ hm))), universal_osWrite win u hu] at h2
  · intro h; rw [h]

example : renewed true false "А\r\nБ\r\n".toList = "А\r\nБ\r\n".toList ∧ '\r' ∉ "А\nБ\n".toList ∧ StoredForm "А\n// v8unpack &НаКлиенте\n".toList := by
  refine ⟨by decide +kernel, by decide +kernel, ?_⟩
  rw [← comment_uncomment_iff]
  decide +kernel

/-- **C49 is false of the code across platforms**: on Unix a module with CR LF line ends, as 1C writes them, is rebuilt with bare LF. -/
theorem C49_crlf_lost_on_unix : Rebuilt false false (utf8 "А;\r\nБ;\r\n".toList) (utf8 "А;\nБ;\n".toList) :=
  C49_utf8 false false "А;\r\nБ;\r\n".toList

/-- **C49 is false of the code for binary modules** that happen to have only bytes of windows-1251: the bytes 13 10 become 10 on Unix. -/
theorem C49_binary_as_text : ∃ b b' : Bytes, utf8Text b = none ∧ b' ≠ b ∧ Rebuilt false false b b' := by
  refine ⟨[0xFF, 0x0D, 0x0A, 0x00], [0xFF, 0x0A, 0x00], by decide +kernel, by decide, ?_⟩
  obtain ⟨b', h1, h2⟩ := C49_cp1251 false false [0xFF, 0x0D, 0x0A, 0x00] "я\r\n\x00".toList (by decide +kernel) (by decide +kernel)
  have : cpBytes (renewed false false "я\r\n\x00".toList) = some [0xFF, 0x0A, 0x00] := by decide +kernel
  rw [this] at h1
  cases h1
  exact h2

/-! ## C50 -/

/-- **C50 is false of the code.**  A protected module - its folder has `image` and no `text` - goes into no source file, and a build
gives a folder with an empty `text` and no `image`, whatever it was and without an error. -/
theorem C50_protected_module_lost (win cd : Bool) (info : List (List Val)) (image bin : Option Bytes) :
    (extractModule win cd (.dir info none image bin)).bsl = none ∧
    (extractModule win cd (.dir info none image bin)).blob = none ∧
    buildModule win cd (extractModule win cd (.dir info none image bin)) = some (.dir info (some []) none none) := by
  refine ⟨rfl, rfl, ?_⟩
  cases win <;> cases cd <;> rfl

/-- **C50, the other direction**: a module file that is deleted from the sources is built as an empty module, without an error. -/
theorem C50_deleted_source_built_empty (win cd : Bool) (info : Option (List (List Val))) (blob : Option Bytes) :
    buildModule win cd ⟨some info, .utf8, none, blob⟩ =
      some (match info with | none => .file [] | some i => .dir i (some []) none none) := by
  cases win <;> cases cd <;> cases info <;> rfl

end V8.Module
