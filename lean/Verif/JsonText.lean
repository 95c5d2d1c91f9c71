import Verif.Decimal
import Verif.Encoding
/-
Model of the JSON files of the sources: /repo/src/v8unpack/helper.py:46-64 (json_read, json_write) and the other places that write and read
JSON in the same way (/repo/src/v8unpack/json_container_decoder.py:80-82, 291-292, /repo/src/v8unpack/index.py:44-52).

The code calls `json.dump(data, file, ensure_ascii=False, indent=2)` and `json.load(file)`; the functions below follow the pure Python version
of that library module (json/encoder.py: _make_iterencode, py_encode_basestring; json/decoder.py: JSONDecoder.decode, JSONObject, JSONArray,
py_scanstring; json/scanner.py: py_make_scanner).  Not modelled: the recursion limit, the limit on the number of digits of an integer, and texts
with lone surrogates (`\ud800` alone), which Python reads but cannot write in UTF-8; here they are an error on reading.
-/
namespace V8.JsonText
open V8.Dec V8.Brace V8.Enc

/-- a JSON value as Python has it: None, bool, int, str, list, dict (in insertion order); a float keeps its text -/
inductive JT where
  | null
  | bool (b : Bool)
  | int (i : Int)
  | float (src : Text)
  | str (s : Text)
  | arr (l : List JT)
  | obj (d : List (Text × JT))

/-! ### json.dump -/

/-- a hexadecimal digit, `'{0:04x}'` -/
def hexDigit (n : Nat) : Char := if n < 10 then Char.ofNat (48 + n) else Char.ofNat (87 + n)

/-- ESCAPE_DCT and `\\u{0:04x}`: the replacement of one character by py_encode_basestring -/
def escChar (c : Char) : Text :=
  if c = '"' then ['\\', '"']
  else if c = '\\' then ['\\', '\\']
  else if c = '\n' then ['\\', 'n']
  else if c = '\r' then ['\\', 'r']
  else if c = '\t' then ['\\', 't']
  else if c.toNat = 12 then ['\\', 'f']
  else if c.toNat = 8 then ['\\', 'b']
  else if c.toNat < 32 then ['\\', 'u', '0', '0', hexDigit (c.toNat / 16), hexDigit (c.toNat % 16)]
  else [c]

/-- py_encode_basestring without the opening quote -/
def escText (s : Text) : Text := s.flatMap escChar ++ ['"']

/-- newline_indent at a level -/
def nl (lvl : Nat) : Text := '\n' :: List.replicate (2 * lvl) ' '

mutual
/-- _iterencode with indent=2 (so the item separator is `,` and the key separator `: `) -/
def dump (lvl : Nat) : JT → Text
  | .null => ['n', 'u', 'l', 'l']
  | .bool true => ['t', 'r', 'u', 'e']
  | .bool false => ['f', 'a', 'l', 's', 'e']
  | .int i => showInt i
  | .float s => s
  | .str s => '"' :: escText s
  | .arr [] => ['[', ']']
  | .arr (x :: r) => '[' :: (nl (lvl + 1) ++ (dump (lvl + 1) x ++ dumpItems (lvl + 1) r ++ (nl lvl ++ [']'])))
  | .obj [] => ['{', '}']
  | .obj ((k, x) :: r) =>
    '{' :: (nl (lvl + 1) ++ ('"' :: (escText k ++ (':' :: ' ' :: (dump (lvl + 1) x ++ dumpMembers (lvl + 1) r ++ (nl lvl ++ ['}']))))))
/-- the further items of a list -/
def dumpItems (lvl : Nat) : List JT → Text
  | [] => []
  | x :: r => ',' :: (nl lvl ++ (dump lvl x ++ dumpItems lvl r))
/-- the further items of a dict -/
def dumpMembers (lvl : Nat) : List (Text × JT) → Text
  | [] => []
  | (k, x) :: r => ',' :: (nl lvl ++ ('"' :: (escText k ++ (':' :: ' ' :: (dump lvl x ++ dumpMembers lvl r)))))
end

/-! ### json.load -/

/-- WHITESPACE_STR -/
def isWs (c : Char) : Bool := c == ' ' || c == '\t' || c == '\n' || c == '\r'

/-- `_w(s, end).end()` -/
def skip (t : Text) : Text := t.dropWhile isWs

/-- a hexadecimal digit, HEXDIGITS -/
def hexVal (c : Char) : Option Nat :=
  if 48 ≤ c.toNat ∧ c.toNat ≤ 57 then some (c.toNat - 48)
  else if 97 ≤ c.toNat ∧ c.toNat ≤ 102 then some (c.toNat - 87)
  else if 65 ≤ c.toNat ∧ c.toNat ≤ 70 then some (c.toNat - 55)
  else none

/-- _decode_uXXXX -/
def hex4 (a b c d : Char) : Option Nat :=
  match hexVal a, hexVal b, hexVal c, hexVal d with
  | some a, some b, some c, some d => some (((a * 16 + b) * 16 + c) * 16 + d)
  | _, _, _, _ => none

/-- BACKSLASH -/
def backslash (c : Char) : Option Char :=
  if c = '"' then some '"' else if c = '\\' then some '\\' else if c = '/' then some '/'
  else if c = 'b' then some (Char.ofNat 8) else if c = 'f' then some (Char.ofNat 12) else if c = 'n' then some '\n'
  else if c = 'r' then some '\r' else if c = 't' then some '\t' else none

/-- put a character before a scanned string -/
def push (c : Char) (r : Option (Text × Text)) : Option (Text × Text) := r.map (fun p => (c :: p.1, p.2))

/-- py_scanstring with strict=True, behind the opening quote: the string and what follows the closing quote -/
def scan : Text → Option (Text × Text)
  | [] => none
  | c :: r =>
    if c = '"' then some ([], r)
    else if c = '\\' then match r with
      | [] => none
      | e :: r => if e = 'u' then match r with
          | h1 :: h2 :: h3 :: h4 :: r => match hex4 h1 h2 h3 h4 with
            | none => none
            | some n =>
              if 0xD800 ≤ n ∧ n ≤ 0xDBFF then match r with
                | b :: u :: g1 :: g2 :: g3 :: g4 :: r =>
                  if b = '\\' ∧ u = 'u' then match hex4 g1 g2 g3 g4 with
                    | none => none
                    | some m => if 0xDC00 ≤ m ∧ m ≤ 0xDFFF then
                        push (Char.ofNat (0x10000 + ((n - 0xD800) * 1024 + (m - 0xDC00)))) (scan r)
                      else none
                  else none
                | _ => none
              else if 0xDC00 ≤ n ∧ n ≤ 0xDFFF then none
              else push (Char.ofNat n) (scan r)
          | _ => none
        else match backslash e with
          | none => none
          | some x => push x (scan r)
    else if c.toNat < 32 then none
    else push c (scan r)

/-- the fraction of NUMBER_RE, `(\.[0-9]+)?`: its text and the rest -/
def frac : Text → Text × Text
  | '.' :: r => if (r.takeWhile isDigit) = [] then ([], '.' :: r) else ('.' :: r.takeWhile isDigit, r.dropWhile isDigit)
  | r => ([], r)

/-- the digits of an exponent behind `sign` -/
def expo (sign r t : Text) : Text × Text :=
  if (r.takeWhile isDigit) = [] then ([], t) else (sign ++ r.takeWhile isDigit, r.dropWhile isDigit)

/-- the exponent of NUMBER_RE, `([eE][-+]?[0-9]+)?` -/
def expPart : Text → Text × Text
  | [] => ([], [])
  | c :: r => if c = 'e' ∨ c = 'E' then match r with
      | '-' :: q => expo [c, '-'] q (c :: r)
      | '+' :: q => expo [c, '+'] q (c :: r)
      | q => expo [c] q (c :: r)
    else ([], c :: r)

/-- the integer part of NUMBER_RE behind the sign, `0|[1-9][0-9]*` -/
def intPart : Text → Option (Text × Text)
  | [] => none
  | c :: r => if c = '0' then some (['0'], r)
    else if isDigit c then some (c :: r.takeWhile isDigit, r.dropWhile isDigit) else none

/-- the value of a text of digits -/
def natOf (t : Text) : Nat := t.foldl (fun x c => x * 10 + digitVal c) 0

/-- the rest of match_number: `neg` is the sign -/
def finish (neg : Bool) (ds r : Text) : JT × Text :=
  let f := frac r
  let e := expPart f.2
  if f.1 = [] ∧ e.1 = [] then (.int (if neg then -(natOf ds : Int) else (natOf ds : Int)), e.2)
  else (.float ((if neg then ['-'] else []) ++ ds ++ f.1 ++ e.1), e.2)

/-- match_number, and NaN, Infinity, -Infinity -/
def number (t : Text) : Option (JT × Text) :=
  match t with
  | '-' :: r => match intPart r with
    | some (ds, q) => some (finish true ds q)
    | none => if "Infinity".toList.isPrefixOf r then some (.float ("-Infinity".toList), r.drop 8) else none
  | t => match intPart t with
    | some (ds, q) => some (finish false ds q)
    | none => if "NaN".toList.isPrefixOf t then some (.float "NaN".toList, t.drop 3)
      else if "Infinity".toList.isPrefixOf t then some (.float "Infinity".toList, t.drop 8) else none

/-- null, true, false and numbers: scanner.py, the end of _scan_once -/
def plain (t : Text) : Option (JT × Text) :=
  if ['n', 'u', 'l', 'l'].isPrefixOf t then some (.null, t.drop 4)
  else if ['t', 'r', 'u', 'e'].isPrefixOf t then some (.bool true, t.drop 4)
  else if ['f', 'a', 'l', 's', 'e'].isPrefixOf t then some (.bool false, t.drop 5)
  else number t

/-- `d[k] = v` -/
def dset (d : List (Text × JT)) (k : Text) (v : JT) : List (Text × JT) :=
  match d with
  | [] => [(k, v)]
  | (k', v') :: r => if k' = k then (k', v) :: r else (k', v') :: dset r k v

/-- `dict(pairs)` -/
def dictOf (ps : List (Text × JT)) : List (Text × JT) := ps.foldl (fun d p => dset d p.1 p.2) []

mutual
/-- _scan_once; the number bounds the depth of recursion, it is never reached from `loads` (`value_enough`) -/
def value : Nat → Text → Option (JT × Text)
  | 0, _ => none
  | _ + 1, [] => none
  | n + 1, c :: r =>
    if c = '"' then (scan r).map (fun p => (.str p.1, p.2))
    else if c = '{' then match skip r with
      | [] => none
      | c :: r => if c = '}' then some (.obj [], r)
        else if c = '"' then (members n r).map (fun p => (.obj (dictOf p.1), p.2)) else none
    else if c = '[' then match skip r with
      | [] => none
      | c :: r => if c = ']' then some (.arr [], r) else (items n (c :: r)).map (fun p => (.arr p.1, p.2))
    else plain (c :: r)
/-- the loop of JSONArray -/
def items : Nat → Text → Option (List JT × Text)
  | 0, _ => none
  | n + 1, t => match value n t with
    | none => none
    | some (v, r) => match skip r with
      | [] => none
      | c :: r => if c = ']' then some ([v], r)
        else if c = ',' then (items n (skip r)).map (fun p => (v :: p.1, p.2)) else none
/-- the loop of JSONObject, behind the opening quote of a key -/
def members : Nat → Text → Option (List (Text × JT) × Text)
  | 0, _ => none
  | n + 1, t => match scan t with
    | none => none
    | some (k, r) => match skip r with
      | [] => none
      | c :: r => if c = ':' then match value n (skip r) with
          | none => none
          | some (v, r) => match skip r with
            | [] => none
            | c :: r => if c = '}' then some ([(k, v)], r)
              else if c = ',' then match skip r with
                | [] => none
                | c :: r => if c = '"' then (members n r).map (fun p => ((k, v) :: p.1, p.2)) else none
              else none
        else none
end

/-- json.loads: a byte order mark is refused (json/__init__.py), JSONDecoder.decode -/
def loads (t : Text) : Option JT :=
  if t.head? = some bom then none
  else match value (2 * t.length + 1) (skip t) with
    | none => none
    | some (v, r) => if skip r = [] then some v else none

/-! ### files -/

/-- json_write: helper.py:57-64, the bytes of the file; `win` tells whether text mode writes CR LF -/
noncomputable def fileOf (win : Bool) (x : JT) : Bytes := utf8 (osWrite win (dump 0 x))

/-- json_read: helper.py:46-54; `none` is an exception -/
noncomputable def readFile (b : Bytes) : Option JT := (utf8Text b).bind (fun t => loads (universal t))

end V8.JsonText
