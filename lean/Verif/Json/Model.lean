import Verif.Json.Spec
/-
Model of the JSON reader the tool is built with: /repo/lib/json/nlohmann (`Json::parse(in)` of /repo/src/options.h:127, 334).

* The input is the list of bytes of the file; the end of the list is `eof`.  `get`/`unget` (lexer.hpp:1329-1400) are reading from that list; positions and
  the texts of error messages are not modelled.  An error is the exception thrown (`allow_exceptions` is set).
* Doubles are represented by their texts; `fin` is `std::isfinite(std::strtod(text))`.  The decimal point is `.` (the tool never sets a locale).
* `std::map` (objects) is a list sorted by key.
-/
namespace Verif.Json

/-- `lexer_base::token_type` (lexer.hpp:30-50) with the values of the lexer. -/
inductive Token where
  | beginArray | endArray | beginObject | endObject | nameSep | valueSep
  | litTrue | litFalse | litNull
  | str (s : Bytes)
  | unsigned (n : Nat)
  | integer (z : Int)
  | float (text : Bytes)
  | eoi
  | error

/-- The conditions of `get_codepoint` (lexer.hpp:171-192) for one character. -/
def hexValue (c : Nat) : Option Nat :=
  if 48 ≤ c ∧ c ≤ 57 then some (c - 0x30)
  else if 65 ≤ c ∧ c ≤ 70 then some (c - 0x37)
  else if 97 ≤ c ∧ c ≤ 102 then some (c - 0x57)
  else none

/-- `get_codepoint` (lexer.hpp:161-198). -/
def getCodepoint : Bytes → Option (Nat × Bytes)
  | a :: b :: c :: d :: r => do
    let x ← hexValue a
    let y ← hexValue b
    let z ← hexValue c
    let u ← hexValue d
    return (x <<< 12 + y <<< 8 + z <<< 4 + u <<< 0, r)
  | _ => none

/-- The bytes added for a code point (lexer.hpp:373-400). -/
def addCodepoint (c : Nat) : Bytes :=
  if c < 0x80 then [c]
  else if c ≤ 0x7FF then [0xC0 ||| (c >>> 6), 0x80 ||| (c &&& 0x3F)]
  else if c ≤ 0xFFFF then [0xE0 ||| (c >>> 12), 0x80 ||| ((c >>> 6) &&& 0x3F), 0x80 ||| (c &&& 0x3F)]
  else [0xF0 ||| (c >>> 18), 0x80 ||| ((c >>> 12) &&& 0x3F), 0x80 ||| ((c >>> 6) &&& 0x3F), 0x80 ||| (c &&& 0x3F)]

/-- `case 'u'` (lexer.hpp:311-403), after the `u`. -/
def scanUnicode (s : Bytes) : Option (Bytes × Bytes) := do
  let (c1, r) ← getCodepoint s
  if 0xD800 ≤ c1 ∧ c1 ≤ 0xDBFF then
    match r with
    | 92 :: 117 :: r => do
      let (c2, r) ← getCodepoint r
      if 0xDC00 ≤ c2 ∧ c2 ≤ 0xDFFF then some (addCodepoint (c1 <<< 10 + c2 - 0x35FDC00), r) else none
    | _ => none
  else if 0xDC00 ≤ c1 ∧ c1 ≤ 0xDFFF then none
  else some (addCodepoint c1, r)

/-- After a backslash (lexer.hpp:270-412): the bytes added and the rest. -/
def scanEscape : Bytes → Option (Bytes × Bytes)
  | 34 :: r => some ([34], r)
  | 92 :: r => some ([92], r)
  | 47 :: r => some ([47], r)
  | 98 :: r => some ([8], r)
  | 102 :: r => some ([12], r)
  | 110 :: r => some ([10], r)
  | 114 :: r => some ([13], r)
  | 116 :: r => some ([9], r)
  | 117 :: r => scanUnicode r
  | _ => none

/-- `next_byte_in_range` (lexer.hpp:209-231), after the first byte. -/
def nextBytes : List (Nat × Nat) → Bytes → Option (Bytes × Bytes)
  | [], s => some ([], s)
  | (lo, hi) :: rs, c :: s => if lo ≤ c ∧ c ≤ hi then (nextBytes rs s).map fun q => (c :: q.1, q.2) else none
  | _ :: _, [] => none

/-- The ranges of the bytes that follow a first byte (lexer.hpp:608-828): `none` for a byte that cannot begin a character (control characters, `"` and
`\` included: they are treated before). -/
def follow (c : Nat) : Option (List (Nat × Nat)) :=
  if 0x20 ≤ c ∧ c ≤ 0x7F then some []
  else if 0xC2 ≤ c ∧ c ≤ 0xDF then some [(0x80, 0xBF)]
  else if c = 0xE0 then some [(0xA0, 0xBF), (0x80, 0xBF)]
  else if (0xE1 ≤ c ∧ c ≤ 0xEC) ∨ c = 0xEE ∨ c = 0xEF then some [(0x80, 0xBF), (0x80, 0xBF)]
  else if c = 0xED then some [(0x80, 0x9F), (0x80, 0xBF)]
  else if c = 0xF0 then some [(0x90, 0xBF), (0x80, 0xBF), (0x80, 0xBF)]
  else if 0xF1 ≤ c ∧ c ≤ 0xF3 then some [(0x80, 0xBF), (0x80, 0xBF), (0x80, 0xBF)]
  else if c = 0xF4 then some [(0x80, 0x8F), (0x80, 0xBF), (0x80, 0xBF)]
  else none

/-- One iteration of the loop of `scan_string` (lexer.hpp:254-830) that does not end the string. -/
def scanChar : Bytes → Option (Bytes × Bytes)
  | [] => none
  | 92 :: s => scanEscape s
  | c :: s => do
    let rs ← follow c
    let q ← nextBytes rs s
    return (c :: q.1, q.2)

/-- `scan_string` (lexer.hpp:246-831), after the opening quote.  The first argument bounds the number of iterations (each reads a byte). -/
def scanString : Nat → Bytes → Option (Bytes × Bytes)
  | _, [] => none
  | 0, _ :: _ => none
  | f + 1, c :: s =>
    if c = 34 then some ([], s)
    else do
      let q ← scanChar (c :: s)
      let t ← scanString f q.2
      return (q.1 ++ t.1, t.2)

/-- Reading digits as long as there are any (the states `any1`, `decimal2`, `any2` of scan_number). -/
def spanDigits : Bytes → Bytes × Bytes
  | [] => ([], [])
  | c :: s => if 48 ≤ c ∧ c ≤ 57 then (c :: (spanDigits s).1, (spanDigits s).2) else ([], c :: s)

/-- From `scan_number_exponent` on (lexer.hpp:1150-1232): the characters added and the rest, `none` for an error.  (The first character is the letter.) -/
def scanExp : Bytes → Option (Bytes × Bytes)
  | c :: s =>
    if c = 43 ∨ c = 45 then match s with
      | d :: r => if 48 ≤ d ∧ d ≤ 57 then some (c :: d :: (spanDigits r).1, (spanDigits r).2) else none
      | [] => none
    else if 48 ≤ c ∧ c ≤ 57 then some (c :: (spanDigits s).1, (spanDigits s).2)
    else none
  | [] => none

/-- The end of the states `zero`, `any1` and `decimal2`: an exponent or the end; the flag tells whether the number is a float. -/
def scanTail (isFloat : Bool) : Bytes → Option (Bytes × Bool × Bytes)
  | c :: s => if c = 101 ∨ c = 69 then (scanExp s).map fun q => (c :: q.1, true, q.2) else some ([], isFloat, c :: s)
  | [] => some ([], isFloat, [])

/-- After the integer part (lexer.hpp:1036-1148): fraction and exponent. -/
def scanRest : Bytes → Option (Bytes × Bool × Bytes)
  | 46 :: s => match s with
    | d :: r => if 48 ≤ d ∧ d ≤ 57 then
        (scanTail true (spanDigits r).2).map fun q => (46 :: d :: ((spanDigits r).1 ++ q.1), q.2.1, q.2.2)
      else none
    | [] => none
  | s => scanTail false s

/-- The states `zero` and `any1` (lexer.hpp:1036-1091) for a number whose first digit is `c`. -/
def scanInt (c : Nat) (s : Bytes) : Option (Bytes × Bool × Bytes) :=
  if c = 48 then (scanRest s).map fun q => (48 :: q.1, q.2.1, q.2.2)
  else (scanRest (spanDigits s).2).map fun q => (c :: ((spanDigits s).1 ++ q.1), q.2.1, q.2.2)

/-- `strtoull`/`strtoll` of a text of digits. -/
def strto (ds : Bytes) : Nat := decimal ds

/-- `scan_number` (lexer.hpp:961-1283), where `c` is the current character, a digit or `-`. -/
def scanNumber (c : Nat) (s : Bytes) : Token × Bytes :=
  if c = 45 then
    match s with
    | d :: r => if 48 ≤ d ∧ d ≤ 57 then
        match scanInt d r with
        | some (t, isFloat, r) =>
          if isFloat = false ∧ strto t ≤ 2 ^ 63 then (.integer (-(strto t : Int)), r) else (.float (45 :: t), r)
        | none => (.error, [])
      else (.error, [])
    | [] => (.error, [])
  else match scanInt c s with
    | some (t, isFloat, r) => if isFloat = false ∧ strto t ≤ 2 ^ 64 - 1 then (.unsigned (strto t), r) else (.float t, r)
    | none => (.error, [])

/-- `scan_literal` (lexer.hpp:1291-1305), after the first character. -/
def scanLiteral (rest : Bytes) (t : Token) (s : Bytes) : Token × Bytes :=
  if s.take rest.length = rest then (t, s.drop rest.length) else (.error, [])

/-- `skip_whitespace` (lexer.hpp:1492-1499). -/
def skipWs : Bytes → Bytes
  | c :: s => if c = 32 ∨ c = 9 ∨ c = 10 ∨ c = 13 then skipWs s else c :: s
  | [] => []

/-- The switch of `scan` (lexer.hpp:1527-1587); comments are not ignored (`skip_comments` is false). -/
def scanToken : Bytes → Token × Bytes
  | [] => (.eoi, [])
  | c :: s =>
    if c = 91 then (.beginArray, s)
    else if c = 93 then (.endArray, s)
    else if c = 123 then (.beginObject, s)
    else if c = 125 then (.endObject, s)
    else if c = 58 then (.nameSep, s)
    else if c = 44 then (.valueSep, s)
    else if c = 116 then scanLiteral [114, 117, 101] .litTrue s
    else if c = 102 then scanLiteral [97, 108, 115, 101] .litFalse s
    else if c = 110 then scanLiteral [117, 108, 108] .litNull s
    else if c = 34 then match scanString s.length s with
      | some (t, r) => (.str t, r)
      | none => (.error, [])
    else if c = 45 ∨ (48 ≤ c ∧ c ≤ 57) then scanNumber c s
    else if c = 0 then (.eoi, s)
    else (.error, [])

/-- `scan` (lexer.hpp:1501-1588), except for the byte order mark. -/
def scan (s : Bytes) : Token × Bytes := scanToken (skipWs s)

/-- `skip_bom` (lexer.hpp:1478-1490): `none` if the mark is broken. -/
def skipBom : Bytes → Option Bytes
  | 0xEF :: s => match s with
    | 0xBB :: 0xBF :: r => some r
    | _ => none
  | s => some s

/-! ### The parser -/

/-- An open container: `states` and `ref_stack` together (parser.hpp:175-177; json_sax.hpp:303-333).  An object remembers `object_element`, the field being read. -/
inductive Frame where
  | arr (done : List Val)
  | obj (fields : List (Bytes × Val)) (key : Bytes)

/-- Where the loop of `sax_parse_internal` is: at the token of a value, or after a value (`skip_to_state_evaluation`, parser.hpp:353-360). -/
inductive State where
  | value (t : Token) (rest : Bytes) (frames : List Frame)
  | after (v : Val) (rest : Bytes) (frames : List Frame)

inductive Outcome where
  | next (s : State)
  | done (v : Val) (rest : Bytes)
  | error

/-- `key`, `name_separator` and the first token of the value (parser.hpp:204-230, 404-430). -/
def member (fields : List (Bytes × Val)) (t : Token) (rest : Bytes) (frames : List Frame) : Outcome :=
  match t with
  | .str k => match scan rest with
    | (.nameSep, r) => .next (.value (scan r).1 (scan r).2 (.obj fields k :: frames))
    | _ => .error
  | _ => .error

/-- One pass of the loop of `sax_parse_internal` (parser.hpp:181-446) with `json_sax_dom_parser` (json_sax.hpp:180-333). -/
def step (fin : Bytes → Bool) : State → Outcome
  | .value t rest frames => match t with
    | .beginObject => match scan rest with
      | (.endObject, r) => .next (.after (.obj []) r frames)
      | (t, r) => member [] t r frames
    | .beginArray => match scan rest with
      | (.endArray, r) => .next (.after (.arr []) r frames)
      | (t, r) => .next (.value t r (.arr [] :: frames))
    | .float x => if fin x = true then .next (.after (.float x) rest frames) else .error
    | .litFalse => .next (.after (.bool false) rest frames)
    | .litNull => .next (.after .null rest frames)
    | .litTrue => .next (.after (.bool true) rest frames)
    | .integer z => .next (.after (.integer z) rest frames)
    | .str s => .next (.after (.str s) rest frames)
    | .unsigned n => .next (.after (.unsigned n) rest frames)
    | _ => .error
  | .after v rest frames => match frames with
    | [] => .done v rest
    | .arr done :: fs => match scan rest with
      | (.valueSep, r) => .next (.value (scan r).1 (scan r).2 (.arr (done ++ [v]) :: fs))
      | (.endArray, r) => .next (.after (.arr (done ++ [v])) r fs)
      | _ => .error
    | .obj fields key :: fs => match scan rest with
      | (.valueSep, r) => member (setField key v fields) (scan r).1 (scan r).2 fs
      | (.endObject, r) => .next (.after (.obj (setField key v fields)) r fs)
      | _ => .error

/-- `sax_parse_internal`: the loop.  The first argument bounds the number of passes. -/
def loop (fin : Bytes → Bool) : Nat → State → Option (Val × Bytes)
  | 0, _ => none
  | n + 1, s => match step fin s with
    | .next s' => loop fin n s'
    | .done v rest => some (v, rest)
    | .error => none

/-- The constructor of `parser`, `parse` in strict mode (parser.hpp:64-75, 116-145), i.e. `Json::parse(in)`: `none` is the exception. -/
def parse (fin : Bytes → Bool) (s : Bytes) : Option Val := do
  let s ← skipBom s
  let (t, r) := scan s
  let (v, r) ← loop fin (2 * s.length + 4) (.value t r [])
  match (scan r).1 with
  | .eoi => some v
  | _ => none

end Verif.Json
