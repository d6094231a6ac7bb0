import Verif.Model.Wire

/-!
# The text of a JSON value

What `serde_json` (version 1.0, default features) writes and reads: crates/protocol/src/common/json_codec.rs:13-15 and
25-33, crates/astro-run/src/execution_context/context_payload.rs:40-43 and mod.rs:308-313.  `serde_json` is not part of
/repo; its compact writer and the texts its reader accepts are modelled here after its documentation and RFC 8259.  The
reader is a machine that takes one character at a time, with a stack of open arrays and objects; at most 127 may be
open (`serde_json` counts down from 128).  The conversion between a float and its text is a parameter.
-/

namespace AstroRun.Wire

/-- The conversions of floats, of other crates: `write` is the text `serde_json` writes for the float whose `Display`
is given, `read` the `Display` of the float it reads from a number text, none if that is out of range. -/
structure FloatText where
  write : String → String
  read : String → Option String

/-! ## Writing -/

/-- A digit of `\u00XX`, lower case. -/
def hexDigit (n : Nat) : Char := if n < 10 then Char.ofNat (48 + n) else Char.ofNat (87 + n)

/-- One character inside a JSON string. -/
def escapeChar (c : Char) : List Char :=
  if c = '"' then ['\\', '"']
  else if c = '\\' then ['\\', '\\']
  else if c.toNat = 8 then ['\\', 'b']
  else if c.toNat = 9 then ['\\', 't']
  else if c.toNat = 10 then ['\\', 'n']
  else if c.toNat = 12 then ['\\', 'f']
  else if c.toNat = 13 then ['\\', 'r']
  else if c.toNat < 32 then ['\\', 'u', '0', '0', hexDigit (c.toNat / 16), hexDigit (c.toNat % 16)]
  else [c]

/-- A JSON string. -/
def printStr (s : String) : List Char := '"' :: (s.toList.flatMap escapeChar ++ ['"'])

mutual
/-- `serde_json::to_string`, `to_writer`: no white space. -/
def printJson (f : FloatText) : Json → List Char
  | .null => ['n', 'u', 'l', 'l']
  | .bool true => ['t', 'r', 'u', 'e']
  | .bool false => ['f', 'a', 'l', 's', 'e']
  | .int n => (toString n).toList
  | .float s => (f.write s).toList
  | .str s => printStr s
  | .arr [] => ['[', ']']
  | .arr (j :: js) => '[' :: (printJson f j ++ printItems f js)
  | .obj [] => ['{', '}']
  | .obj ((k, j) :: es) => '{' :: (printStr k ++ ':' :: (printJson f j ++ printFields f es))
/-- The rest of an array. -/
def printItems (f : FloatText) : List Json → List Char
  | [] => [']']
  | j :: js => ',' :: (printJson f j ++ printItems f js)
/-- The rest of an object. -/
def printFields (f : FloatText) : List (String × Json) → List Char
  | [] => ['}']
  | (k, j) :: es => ',' :: (printStr k ++ ':' :: (printJson f j ++ printFields f es))
end

/-! ## Reading -/

/-- An open array or object: what was read of it, and the key of the value being read. -/
inductive Frame
  | arr (acc : List Json)
  | obj (acc : List (String × Json)) (key : String)

/-- What the reader is in the middle of.  `isKey`: the string is a key, not a value. -/
inductive Mode
  /-- a value must come; `]` may come if `closable` -/
  | value (closable : Bool)
  /-- a key must come; `}` may come if `closable` -/
  | key (closable : Bool)
  | colon
  /-- the value `j` is complete -/
  | after (j : Json)
  /-- in `null`, `true` or `false` -/
  | lit (rest : List Char) (j : Json)
  | num (tok : List Char)
  | str (isKey : Bool) (acc : List Char)
  /-- after a backslash -/
  | esc (isKey : Bool) (acc : List Char)
  /-- after `\u`; `high` is the first half of a surrogate pair -/
  | hex (isKey : Bool) (acc : List Char) (high : Option Nat) (digits : List Nat)
  /-- after the first half of a pair: `\` must come, then `u` -/
  | pair (isKey : Bool) (acc : List Char) (high : Nat) (slash : Bool)

/-- The reader. -/
structure PS where
  stack : List Frame := []
  mode : Mode := .value false

/-- JSON white space. -/
def isWs (c : Char) : Bool := c == ' ' || c == '\n' || c == '\t' || c == '\r'

/-- A character a number can contain. -/
def isNumChar (c : Char) : Bool := c.isDigit || c == '-' || c == '+' || c == '.' || c == 'e' || c == 'E'

/-- The value of a hexadecimal digit. -/
def hexVal (c : Char) : Option Nat :=
  if c.isDigit then some (c.toNat - 48)
  else if 'a' ≤ c ∧ c ≤ 'f' then some (c.toNat - 87)
  else if 'A' ≤ c ∧ c ≤ 'F' then some (c.toNat - 55)
  else none

/-- The exponent part, or nothing. -/
def validExp : List Char → Bool
  | [] => true
  | c :: r =>
    (c == 'e' || c == 'E') &&
      match r with
      | '+' :: d => !d.isEmpty && d.all Char.isDigit
      | '-' :: d => !d.isEmpty && d.all Char.isDigit
      | d => !d.isEmpty && d.all Char.isDigit

/-- What follows the integer part of a number: a fraction, then an exponent. -/
def validTail : List Char → Bool
  | '.' :: r => !(r.takeWhile Char.isDigit).isEmpty && validExp (r.dropWhile Char.isDigit)
  | r => validExp r

/-- The value of a number text.  An integer that fits `u64` or `i64` is one; every other number is a float. -/
def numVal (f : FloatText) (tok : List Char) : Option Json :=
  let neg := tok.head? == some '-'
  let t := if neg then tok.tail else tok
  let ds := t.takeWhile Char.isDigit
  let r := t.dropWhile Char.isDigit
  let n := Nat.ofDigitChars 10 ds 0
  if ds.isEmpty || (ds.head? == some '0' && ds.length != 1) then none
  else if r.isEmpty && !neg && decide (n < 2 ^ 64) then some (.int n)
  else if r.isEmpty && neg && decide (0 < n ∧ n ≤ 2 ^ 63) then some (.int (-n))
  else if validTail r then (f.read (String.ofList tok)).map .float
  else none

/-- A complete string: a key, or a value. -/
def endStr (st : List Frame) (isKey : Bool) (acc : List Char) : Option PS :=
  if isKey then
    match st with
    | .obj es _ :: st => some ⟨.obj es (String.ofList acc) :: st, .colon⟩
    | _ => none
  else some ⟨st, .after (.str (String.ofList acc))⟩

/-- After the value `j`. -/
def stepAfter (st : List Frame) (j : Json) (c : Char) : Option PS :=
  if isWs c then some ⟨st, .after j⟩
  else match st with
    | [] => none
    | .arr js :: st =>
      if c = ',' then some ⟨.arr (js ++ [j]) :: st, .value false⟩
      else if c = ']' then some ⟨st, .after (.arr (js ++ [j]))⟩
      else none
    | .obj es k :: st =>
      if c = ',' then some ⟨.obj (es ++ [(k, j)]) k :: st, .key false⟩
      else if c = '}' then some ⟨st, .after (.obj (es ++ [(k, j)]))⟩
      else none

/-- A value begins (or `]` closes an empty array). -/
def stepValue (st : List Frame) (closable : Bool) (c : Char) : Option PS :=
  if isWs c then some ⟨st, .value closable⟩
  else if c = 'n' then some ⟨st, .lit ['u', 'l', 'l'] .null⟩
  else if c = 't' then some ⟨st, .lit ['r', 'u', 'e'] (.bool true)⟩
  else if c = 'f' then some ⟨st, .lit ['a', 'l', 's', 'e'] (.bool false)⟩
  else if c = '"' then some ⟨st, .str false []⟩
  else if c = '[' then if st.length < 127 then some ⟨.arr [] :: st, .value true⟩ else none
  else if c = '{' then if st.length < 127 then some ⟨.obj [] "" :: st, .key true⟩ else none
  else if c = '-' ∨ c.isDigit then some ⟨st, .num [c]⟩
  else if c = ']' ∧ closable then
    match st with
    | .arr _ :: st => some ⟨st, .after (.arr [])⟩
    | _ => none
  else none

/-- After `\uXXXX`. -/
def endHex (st : List Frame) (isKey : Bool) (acc : List Char) (high : Option Nat) (n : Nat) : Option PS :=
  match high with
  | none =>
    if 0xD800 ≤ n ∧ n ≤ 0xDBFF then some ⟨st, .pair isKey acc n false⟩
    else if 0xDC00 ≤ n ∧ n ≤ 0xDFFF then none
    else some ⟨st, .str isKey (acc ++ [Char.ofNat n])⟩
  | some h =>
    if 0xDC00 ≤ n ∧ n ≤ 0xDFFF then
      some ⟨st, .str isKey (acc ++ [Char.ofNat (0x10000 + (h - 0xD800) * 0x400 + (n - 0xDC00))])⟩
    else none

/-- One character. -/
def stepChar (f : FloatText) (p : PS) (c : Char) : Option PS :=
  let st := p.stack
  match p.mode with
  | .value closable => stepValue st closable c
  | .key closable =>
    if isWs c then some p
    else if c = '"' then some ⟨st, .str true []⟩
    else if c = '}' ∧ closable then
      match st with
      | .obj _ _ :: st => some ⟨st, .after (.obj [])⟩
      | _ => none
    else none
  | .colon => if isWs c then some p else if c = ':' then some ⟨st, .value false⟩ else none
  | .after j => stepAfter st j c
  | .lit [] _ => none
  | .lit [x] j => if c = x then some ⟨st, .after j⟩ else none
  | .lit (x :: y :: r) j => if c = x then some ⟨st, .lit (y :: r) j⟩ else none
  | .num tok =>
    if isNumChar c then some ⟨st, .num (tok ++ [c])⟩
    else (numVal f tok).bind fun j => stepAfter st j c
  | .str isKey acc =>
    if c = '"' then endStr st isKey acc
    else if c = '\\' then some ⟨st, .esc isKey acc⟩
    else if c.toNat < 32 then none
    else some ⟨st, .str isKey (acc ++ [c])⟩
  | .esc isKey acc =>
    if c = '"' ∨ c = '\\' ∨ c = '/' then some ⟨st, .str isKey (acc ++ [c])⟩
    else if c = 'b' then some ⟨st, .str isKey (acc ++ [Char.ofNat 8])⟩
    else if c = 't' then some ⟨st, .str isKey (acc ++ [Char.ofNat 9])⟩
    else if c = 'n' then some ⟨st, .str isKey (acc ++ [Char.ofNat 10])⟩
    else if c = 'f' then some ⟨st, .str isKey (acc ++ [Char.ofNat 12])⟩
    else if c = 'r' then some ⟨st, .str isKey (acc ++ [Char.ofNat 13])⟩
    else if c = 'u' then some ⟨st, .hex isKey acc none []⟩
    else none
  | .hex isKey acc high digits =>
    (hexVal c).bind fun d =>
      if digits.length = 3 then endHex st isKey acc high ((digits ++ [d]).foldl (fun n d => 16 * n + d) 0)
      else some ⟨st, .hex isKey acc high (digits ++ [d])⟩
  | .pair isKey acc high slash =>
    if slash then if c = 'u' then some ⟨st, .hex isKey acc (some high) []⟩ else none
    else if c = '\\' then some ⟨st, .pair isKey acc high true⟩ else none

/-- The end of the text. -/
def finish (f : FloatText) (p : PS) : Option Json :=
  match p.stack, p.mode with
  | [], .after j => some j
  | [], .num tok => numVal f tok
  | _, _ => none

/-- The reader on a text. -/
def readFrom (f : FloatText) : PS → List Char → Option Json
  | p, [] => finish f p
  | p, c :: cs => (stepChar f p c).bind fun p => readFrom f p cs

/-- `serde_json::from_str`, `from_reader` on valid UTF-8. -/
def parseJson (f : FloatText) (text : List Char) : Option Json := readFrom f {} text

/-! ## The codec -/

/-- crates/protocol/src/common/json_codec.rs:13-15 (`encode`) of a value that serialises to `j`. -/
def codecEncode (f : FloatText) (j : Json) : ByteArray := (String.ofList (printJson f j)).toUTF8

/-- crates/protocol/src/common/json_codec.rs:25-33 (`decode`): an error, no message, or a message. -/
def codecDecode {α : Type} (f : FloatText) (dec : Json → Option α) (buf : ByteArray) : Option (Option α) :=
  if buf.size = 0 then some none
  else ((String.fromUTF8? buf).bind fun s => (parseJson f s.toList).bind dec).map some

end AstroRun.Wire
