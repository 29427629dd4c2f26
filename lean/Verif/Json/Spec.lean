import Mathlib.Data.List.Basic
/-
Specification for C89: JSON texts and their values, from RFC 8259 (grammar) and RFC 3629 (UTF-8).  A text is a list of bytes.
-/
namespace Verif.Json

abbrev Bytes := List Nat

/-- A JSON value as a program sees it.  Integers within 64 bits are exact; any other number is kept as its text (its value is a double, about which nothing
is assumed).  Strings are UTF-8.  The fields of an object have different names. -/
inductive Val where
  | null
  | bool (b : Bool)
  | unsigned (n : Nat)
  | integer (z : Int)
  | float (text : Bytes)
  | str (s : Bytes)
  | arr (items : List Val)
  | obj (fields : List (Bytes × Val))

/-- A field with a name that is there already replaces it; fields are sorted by name. -/
def setField (k : Bytes) (v : Val) : List (Bytes × Val) → List (Bytes × Val)
  | [] => [(k, v)]
  | (k', v') :: r => if k = k' then (k, v) :: r else if k < k' then (k, v) :: (k', v') :: r else (k', v') :: setField k v r

/-- The object with the given members, the later ones prevailing. -/
def object (ms : List (Bytes × Val)) : List (Bytes × Val) := ms.foldl (fun o m => setField m.1 m.2 o) []

/-! ### Numbers (RFC 8259, section 6) -/

def digit (c : Nat) : Prop := 48 ≤ c ∧ c ≤ 57

/-- A number literal: sign, integer part, fraction, exponent. -/
structure NumLit where
  neg : Bool
  int : Bytes
  frac : Option Bytes
  /-- the letter, the sign character if any, the digits -/
  exp : Option (Nat × Bytes × Bytes)

/-- `int = zero / ( digit1-9 *DIGIT )`, `frac = "." 1*DIGIT`, `exp = e [ minus / plus ] 1*DIGIT`. -/
structure NumLit.Ok (n : NumLit) : Prop where
  int : n.int ≠ [] ∧ (∀ c ∈ n.int, digit c) ∧ (n.int.head? = some 48 → n.int = [48])
  frac : ∀ f, n.frac = some f → f ≠ [] ∧ ∀ c ∈ f, digit c
  exp : ∀ l s d, n.exp = some (l, s, d) → (l = 101 ∨ l = 69) ∧ (s = [] ∨ s = [43] ∨ s = [45]) ∧ d ≠ [] ∧ ∀ c ∈ d, digit c

def fracText : Option Bytes → Bytes
  | some f => 46 :: f
  | none => []

def expText : Option (Nat × Bytes × Bytes) → Bytes
  | some (l, s, d) => l :: (s ++ d)
  | none => []

def NumLit.text (n : NumLit) : Bytes :=
  (if n.neg then [45] else []) ++ n.int ++ fracText n.frac ++ expText n.exp

/-- The number a list of decimal digits denotes. -/
def decimal (ds : Bytes) : Nat := ds.foldl (fun a d => 10 * a + (d - 48)) 0

/-- An integer that fits 64 bits is that integer; everything else is a double. -/
def NumLit.val (n : NumLit) : Val :=
  if n.frac = none ∧ n.exp = none then
    if n.neg = false ∧ decimal n.int < 2 ^ 64 then .unsigned (decimal n.int)
    else if n.neg = true ∧ decimal n.int ≤ 2 ^ 63 then .integer (-(decimal n.int : Int))
    else .float n.text
  else .float n.text

/-! ### Strings (RFC 8259, section 7) -/

/-- The scalar values of Unicode. -/
def Scalar (c : Nat) : Prop := c < 0xD800 ∨ (0xE000 ≤ c ∧ c ≤ 0x10FFFF)

/-- UTF-8 (RFC 3629, section 3). -/
def utf8 (c : Nat) : Bytes :=
  if c < 0x80 then [c]
  else if c < 0x800 then [0xC0 + c / 64, 0x80 + c % 64]
  else if c < 0x10000 then [0xE0 + c / 4096, 0x80 + c / 64 % 64, 0x80 + c % 64]
  else [0xF0 + c / 262144, 0x80 + c / 4096 % 64, 0x80 + c / 64 % 64, 0x80 + c % 64]

/-- A hexadecimal digit and its value. -/
inductive Hex : Nat → Nat → Prop
  | digit {c : Nat} : 48 ≤ c → c ≤ 57 → Hex c (c - 48)
  | upper {c : Nat} : 65 ≤ c → c ≤ 70 → Hex c (c - 55)
  | lower {c : Nat} : 97 ≤ c → c ≤ 102 → Hex c (c - 87)

/-- Four hexadecimal digits. -/
inductive Hex4 : Bytes → Nat → Prop
  | mk {a b c d x y z u : Nat} : Hex a x → Hex b y → Hex c z → Hex d u → Hex4 [a, b, c, d] (4096 * x + 256 * y + 16 * z + u)

/-- The two-character escapes: the character after the backslash, and what it stands for. -/
def escapes : List (Nat × Nat) := [(34, 34), (92, 92), (47, 47), (98, 8), (102, 12), (110, 10), (114, 13), (116, 9)]

/-- One character of a string: how it is written, and which Unicode character it is. -/
inductive CharText : Bytes → Nat → Prop
  | plain {c : Nat} : Scalar c → 0x20 ≤ c → c ≠ 34 → c ≠ 92 → CharText (utf8 c) c
  | escape {e c : Nat} : (e, c) ∈ escapes → CharText [92, e] c
  | unicode {h : Bytes} {c : Nat} : Hex4 h c → Scalar c → CharText (92 :: 117 :: h) c
  | pair {h l : Bytes} {x y : Nat} : Hex4 h (0xD800 + x) → x < 0x400 → Hex4 l (0xDC00 + y) → y < 0x400 →
      CharText (92 :: 117 :: (h ++ 92 :: 117 :: l)) (0x10000 + 0x400 * x + y)

/-- The characters of a string, without the quotes. -/
inductive StrText : Bytes → List Nat → Prop
  | nil : StrText [] []
  | cons {t r : Bytes} {c : Nat} {cs : List Nat} : CharText t c → StrText r cs → StrText (t ++ r) (c :: cs)

/-! ### Values (RFC 8259, sections 2-5) -/

/-- `ws = *( %x20 / %x09 / %x0A / %x0D )`. -/
def Ws (w : Bytes) : Prop := ∀ c ∈ w, c = 32 ∨ c = 9 ∨ c = 10 ∨ c = 13

mutual
/-- The text `t`, without white space around it, denotes `v`.  `fin` says which of the numbers that are not 64-bit integers have a finite double. -/
inductive Text (fin : Bytes → Bool) : Val → Bytes → Prop
  | null : Text fin .null [110, 117, 108, 108]
  | true : Text fin (.bool true) [116, 114, 117, 101]
  | false : Text fin (.bool false) [102, 97, 108, 115, 101]
  | num (n : NumLit) : n.Ok → (n.val = .float n.text → fin n.text = true) → Text fin n.val n.text
  | str {cs : List Nat} {t : Bytes} : StrText t cs → Text fin (.str (cs.flatMap utf8)) (34 :: (t ++ [34]))
  | emptyArr {w : Bytes} : Ws w → Text fin (.arr []) (91 :: (w ++ [93]))
  | arr {vs : List Val} {t : Bytes} : Items fin vs t → Text fin (.arr vs) (91 :: (t ++ [93]))
  | emptyObj {w : Bytes} : Ws w → Text fin (.obj []) (123 :: (w ++ [125]))
  | obj {ms : List (Bytes × Val)} {t : Bytes} : Members fin ms t → Text fin (.obj (object ms)) (123 :: (t ++ [125]))
/-- One or more values separated by commas. -/
inductive Items (fin : Bytes → Bool) : List Val → Bytes → Prop
  | one {v : Val} {a t b : Bytes} : Ws a → Text fin v t → Ws b → Items fin [v] (a ++ t ++ b)
  | more {v : Val} {vs : List Val} {a t b r : Bytes} : Ws a → Text fin v t → Ws b → Items fin vs r → Items fin (v :: vs) (a ++ t ++ b ++ 44 :: r)
/-- One or more `name : value` separated by commas. -/
inductive Members (fin : Bytes → Bool) : List (Bytes × Val) → Bytes → Prop
  | one {v : Val} {cs : List Nat} {a k b c t d : Bytes} : Ws a → StrText k cs → Ws b → Ws c → Text fin v t → Ws d →
      Members fin [(cs.flatMap utf8, v)] (a ++ 34 :: (k ++ 34 :: (b ++ 58 :: (c ++ t ++ d))))
  | more {v : Val} {ms : List (Bytes × Val)} {cs : List Nat} {a k b c t d r : Bytes} : Ws a → StrText k cs → Ws b → Ws c → Text fin v t → Ws d →
      Members fin ms r → Members fin ((cs.flatMap utf8, v) :: ms) (a ++ 34 :: (k ++ 34 :: (b ++ 58 :: (c ++ t ++ d ++ 44 :: r))))
end

/-- `JSON-text = ws value ws`. -/
inductive JsonText (fin : Bytes → Bool) : Val → Bytes → Prop
  | mk {v : Val} {a t b : Bytes} : Ws a → Text fin v t → Ws b → JsonText fin v (a ++ t ++ b)

/-- The byte order mark. -/
def bom : Bytes := [0xEF, 0xBB, 0xBF]

end Verif.Json
