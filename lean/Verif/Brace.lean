/-
Model of /repo/src/v8unpack/json_container_decoder.py (the brace file parser and serializer) and of the text
file layer it is used through (helper.brace_file_read / brace_file_write, /repo/src/v8unpack/helper.py:16-43).

Character encodings are not modelled: a text is a list of characters.  New-line translation of Python's text mode
is modelled (`universal`, `osWrite`), for Unix (`win = false`) and for Windows (`win = true`).
-/
namespace V8.Brace

abbrev Text := List Char

/-- values of a brace file, as the JSON it is converted to: None, string or list -/
inductive Val
  | none
  | str (s : Text)
  | list (l : List Val)
deriving Repr

mutual
def Val.decEq : (a b : Val) → Decidable (a = b)
  | .none, .none => .isTrue rfl
  | .none, .str _ => .isFalse (by simp)
  | .none, .list _ => .isFalse (by simp)
  | .str _, .none => .isFalse (by simp)
  | .str a, .str b => if h : a = b then .isTrue (by rw [h]) else .isFalse (by simpa using h)
  | .str _, .list _ => .isFalse (by simp)
  | .list _, .none => .isFalse (by simp)
  | .list _, .str _ => .isFalse (by simp)
  | .list a, .list b => match Val.decEqs a b with
    | .isTrue h => .isTrue (by rw [h])
    | .isFalse h => .isFalse (by simpa using h)
def Val.decEqs : (a b : List Val) → Decidable (a = b)
  | [], [] => .isTrue rfl
  | [], _ :: _ => .isFalse (by simp)
  | _ :: _, [] => .isFalse (by simp)
  | x :: a, y :: b => match Val.decEq x y, Val.decEqs a b with
    | .isTrue h, .isTrue h' => .isTrue (by rw [h, h'])
    | .isFalse h, _ => .isFalse (by simp [h])
    | _, .isFalse h => .isFalse (by simp [h])
end

instance : DecidableEq Val := Val.decEq

/-- how the modelled functions can fail -/
inductive BErr
  | unexpected   -- ExtException 'Неожиданное начало объекта' (line 181)
  | attr         -- AttributeError / TypeError inside a handler, wrapped at lines 104-113
  | mode         -- the file ended in a mode other than READ_PARAM (lines 114-124)
  | bigBase64    -- BigBase64 (line 156)
deriving Repr, DecidableEq

deriving instance DecidableEq for Except

/-! ### Text files -/

/-- reading in text mode with universal new lines (`open(..., 'r')`, newline=None) -/
def universal : Text → Text
  | [] => []
  | '\r' :: '\n' :: t => '\n' :: universal t
  | '\r' :: t => '\n' :: universal t
  | c :: t => c :: universal t

/-- writing in text mode: `'\n'` becomes os.linesep -/
def osWrite (win : Bool) (t : Text) : Text :=
  if win then t.flatMap (fun c => if c = '\n' then ['\r', '\n'] else [c]) else t

/-- what a later read sees of a text that was written -/
def io (win : Bool) (t : Text) : Text := universal (osWrite win t)

/-- iteration over an open text file, `for line in file` (line 98): every line keeps its line feed -/
def lines : Text → List Text
  | [] => []
  | c :: t =>
    if c = '\n' then ['\n'] :: lines t
    else match lines t with
      | [] => [[c]]
      | l :: ls => (c :: l) :: ls

/-! ### Parser -/

/-- `Mode`: lines 11-18 (END_READ_MULTI_STRING_VALUE is never set by the code) -/
inductive Mode
  | param | beginStr | multi | endStr | b64 | text
deriving Repr, DecidableEq

/-- value of `previous_char` as far as it is ever compared: it is only tested against '}' (line 277) -/
abbrev PrevIsBrace := Bool

/-- Parser state (lines 22-33).  Python keeps one mutable tree with `path` holding references to the open lists;
here the open lists are held apart (`stack`, innermost first, each without its open child) and the finished root
lists are in `done`; `allData` reassembles `self.data`.  `current_object is None` iff `stack = []`. -/
structure PS where
  mode : Mode
  done : List (List Val)
  stack : List (List Val)
  cur : Option Text         -- current_value
  prevBrace : Bool          -- previous_char == '}'
deriving Repr, DecidableEq

def collapse : List Val → List (List Val) → List Val
  | x, [] => x
  | x, y :: r => collapse (y ++ [.list x]) r

/-- `self.data` -/
def PS.allData (s : PS) : List (List Val) :=
  match s.stack with
  | [] => s.done
  | x :: r => s.done ++ [collapse x r]

/-- lines 22-33, 95-96 -/
def PS.init : PS := ⟨.param, [], [], none, false⟩

/-- `None` or string as list element -/
def valOf : Option Text → Val
  | none => .none
  | some t => .str t

/-- _add_to_current_value: lines 260-265; `value` is a character (or the rest of a line) other than '}' alone
unless `isBrace` -/
def PS.add (s : PS) (v : Text) : PS :=
  { s with cur := some (s.cur.getD [] ++ v), prevBrace := decide (v = ['}']) }

/-- _end_value: lines 275-280 -/
def PS.endValue (s : PS) : Except BErr PS :=
  if s.prevBrace then .ok { s with mode := .param, prevBrace := false }
  else match s.stack with
    | [] => .error .attr
    | x :: r => .ok { s with mode := .param, stack := (x ++ [valOf s.cur]) :: r, cur := some [], prevBrace := false }

/-- _end_current_object: lines 267-273 -/
def PS.endObject (s : PS) : Except BErr PS :=
  match s.endValue with
  | .error e => .error e
  | .ok s =>
    match s.stack with
    | [] => .ok { s with cur := none, prevBrace := true }
    | [x] => .ok { s with done := s.done ++ [x], stack := [], cur := none, prevBrace := true }
    | x :: y :: r => .ok { s with stack := (y ++ [.list x]) :: r, cur := none, prevBrace := true }

/-- decode_object: lines 188-225, on the characters not yet consumed of `line`.  `prev` is the character before them
in `line` (none at its start).  The test of line 196, `line.endswith(',"\n') and i == len(line) - 2`, says that the
quote is preceded by a comma and followed by exactly a line feed. -/
def decodeObject (s : PS) (prev : Option Char) : Text → Except BErr PS
  | [] => .ok s
  | c :: rest =>
    match s.mode with
    | .param =>
      if c = ',' then
        match s.endValue with
        | .error e => .error e
        | .ok s => decodeObject s (some c) rest
      else if c = '}' then
        match s.endObject with
        | .error e => .error e
        | .ok s => decodeObject s (some c) rest
      else if c = '"' then
        if prev = some ',' ∧ rest = ['\n'] then .ok ({ s with mode := .multi }.add ('"' :: rest))
        else decodeObject ({ s with mode := .beginStr }.add [c]) (some c) rest
      else if c = '\n' then .ok s
      else decodeObject (s.add [c]) (some c) rest
    | .beginStr =>
      if c = '"' then decodeObject ({ s with mode := .endStr }.add [c]) (some c) rest
      else decodeObject (s.add [c]) (some c) rest
    | .endStr =>
      if c = '"' then decodeObject ({ s with mode := .beginStr }.add [c]) (some c) rest
      else if c = ',' then
        match s.endValue with
        | .error e => .error e
        | .ok s => decodeObject s (some c) rest
      else if c = '}' then
        match s.endObject with
        | .error e => .error e
        | .ok s => decodeObject s (some c) rest
      else decodeObject (s.add [c]) (some c) rest
    | _ => .error .attr

/-- decode_b64_line: lines 230-241; `line` from start_pos on; `first` is `start_pos == 1`.  The search for '}' starts
at the beginning of the line, which only differs from this when the skipped character is '}' (it is '{'). -/
def decodeB64 (s : PS) (line : Text) (first : Bool) : Except BErr PS :=
  match s.cur with
  | none => .error .attr
  | some v =>
    if '}' ∈ line then
      let head := line.takeWhile (· ≠ '}')
      let v := v ++ head
      let v := if first then '#' :: v else v
      match { s with cur := some v }.endObject with
      | .error e => .error e
      | .ok s => decodeObject s none (line.drop (head.length + 1))
    else .ok { s with cur := some (v ++ line.dropLast) }

/-- `str.count('"')` -/
def countQ (line : Text) : Nat := line.count '"'

/-- `str.count('""')`: non-overlapping, from the left -/
def countQQ : Text → Nat
  | '"' :: '"' :: t => countQQ t + 1
  | _ :: t => countQQ t
  | [] => 0

/-- _decode_line_read_param, first branch: lines 142-160; `rest` is the line after its '{' -/
def openBrace (s : PS) (rest : Text) : Except BErr PS :=
  let s := { s with stack := [] :: s.stack, cur := some [] }
  if "#base64".toList.isPrefixOf rest then
    match s.allData with
    | [[.str ['1'], _]] => .error .bigBase64
    | _ => decodeB64 { s with mode := .b64 } rest true
  else decodeObject s none rest

/-- _decode_line_read_b64: lines 133-136 -/
def lineB64 (s : PS) (line : Text) : Except BErr PS :=
  if line = ['\n'] then .ok s else decodeB64 s line false

/-- the condition `self.current_value and len(self.current_value) == 64`: lines 164, 177 -/
def cur64 (s : PS) : Bool :=
  match s.cur with
  | some v => v.length == 64
  | none => false

/-- _decode_line_read_param: lines 141-183 -/
def lineParam (s : PS) (line : Text) : Except BErr PS :=
  match line with
  | [] => .error .attr
  | c :: rest =>
    if c = '{' then openBrace s rest
    else if c = '}' then
      match s.endObject with
      | .error e => .error e
      | .ok s => decodeObject s none rest
    else if c = '\n' ∧ cur64 s then .ok { s with mode := .b64 }
    else if s.allData = [] ∧ s.cur = none then
      if line = ['\n'] then .ok s else .ok { s with mode := .text }
    else if s.allData = [[]] ∧ s.cur = some [] then .ok { s with mode := .text }
    else if cur64 s then lineB64 { s with mode := .b64 } line
    else .error .unexpected

/-- decode_line: lines 129-131 with the handlers of lines 133-258.  There is no handler for END_READ_STRING_VALUE. -/
def decodeLine (s : PS) (line : Text) : Except BErr PS :=
  match s.mode with
  | .param => lineParam s line
  | .beginStr => decodeObject s none line
  | .multi =>
    if countQQ line * 2 ≠ countQ line then decodeObject { s with mode := .beginStr } none line
    else match s.cur with
      | none => .error .attr
      | some v => .ok { s with cur := some (v ++ line) }
  | .endStr => .error .attr
  | .b64 => lineB64 s line
  | .text => .ok s

def decodeLines (s : PS) : List Text → Except BErr PS
  | [] => .ok s
  | l :: ls => match decodeLine s l with
    | .error e => .error e
    | .ok s => decodeLines s ls

/-- decode_file: lines 94-127.  An empty result stands for the empty string returned when there is no data. -/
def decodeFile (t : Text) : Except BErr (List (List Val)) :=
  match decodeLines PS.init (lines t) with
  | .error e => .error e
  | .ok s => if s.mode = .param then .ok s.allData else .error .mode

/-! ### Serializer -/

/-- the base64 alphabet -/
def isB64 (c : Char) : Bool :=
  ('A' ≤ c ∧ c ≤ 'Z') || ('a' ≤ c ∧ c ≤ 'z') || ('0' ≤ c ∧ c ≤ '9') || c = '+' || c = '/'

/-- binascii.a2b_base64 in its default, non-strict mode (CPython), as a success test: `quad` is the position in the
group of four, `pads` the number of '=' seen since the last data character; foreign characters are skipped. -/
def b64ok : Nat → Nat → Text → Bool
  | quad, _, [] => quad == 0
  | quad, pads, c :: t =>
    if c = '=' then
      if 2 ≤ quad then
        if 4 ≤ quad + (pads + 1) then true else b64ok quad (pads + 1) t
      else b64ok quad pads t
    else if isB64 c then b64ok ((quad + 1) % 4) 0 t
    else b64ok quad pads t

/-- `b64decode(elem)` does not raise ValueError: the string is ASCII and decodable (lines 337-341) -/
def b64decodes (t : Text) : Bool := t.all (fun c => c.toNat < 128) && b64ok 0 0 t

/-- the `while j` loop: lines 345-357 -/
def split64 (sep : Text) (t : Text) : Text :=
  if 64 < t.length then t.take 64 ++ sep ++ split64 sep (t.drop 64) else t
termination_by t.length
decreasing_by simp; omega

/-- the `while j <= len(elem)` loop: lines 328-330, on elem[j:] -/
def tail64 (sep : Text) (t : Text) : Text :=
  if 64 ≤ t.length then sep ++ t.take 64 ++ tail64 sep (t.drop 64) else sep ++ t
termination_by t.length
decreasing_by simp; omega

/-- serialisation of one string: lines 325-359; `sep` is "\r\n" in the code -/
def encStr (sep : Text) (e : Text) : Text :=
  if "#base64:".toList.isPrefixOf e then
    e.take 72 ++ (if 72 ≤ e.length then tail64 sep (e.drop 72) else [])
  else if "##base64:".toList.isPrefixOf e then e.drop 1
  else if 64 < e.length && b64decodes e then split64 sep e
  else e

mutual
/-- one element with its trailing new line if it is a list in last position: lines 317-363 -/
def encVal (sep : Text) (last : Bool) : Val → Text
  | .none => []
  | .str e => encStr sep e
  | .list l => '\n' :: '{' :: encElems sep l ++ '}' :: (if last then ['\n'] else [])
/-- the elements of a list with separating commas: lines 316-367 -/
def encElems (sep : Text) : List Val → Text
  | [] => []
  | [v] => encVal sep true v
  | v :: w :: r => encVal sep false v ++ ',' :: encElems sep (w :: r)
end

/-- encode_object(data, True): lines 309-370 -/
def encObject (sep : Text) (l : List Val) : Text := '{' :: encElems sep l ++ ['}']

/-- encode_root_object: lines 301-307, with the separator of wrapped lines as a parameter -/
def encRootWith (sep : Text) : List (List Val) → Text
  | [] => []
  | [x] => encObject sep x
  | x :: y :: r => encObject sep x ++ ',' :: '\n' :: encRootWith sep (y :: r)

/-- encode_root_object: lines 301-307 -/
def encRoot (d : List (List Val)) : Text := encRootWith ['\r', '\n'] d

/-- brace_file_write followed by brace_file_read, helper.py:16-43: `win` selects the platform -/
def writeRead (win : Bool) (d : List (List Val)) : Except BErr (List (List Val)) := decodeFile (io win (encRoot d))

end V8.Brace
