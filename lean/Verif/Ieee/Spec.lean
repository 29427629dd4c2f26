import Mathlib.Algebra.Order.Field.Rat
import Mathlib.Algebra.Field.Rat
import Mathlib.Algebra.Order.Ring.Unbundled.Rat
/-
IEEE 754-2008, binary interchange formats (3.4), the attribute roundTiesToEven (4.3.1), and the operations the program uses (5.4.1, 5.11, 6): what
`float` and `double` of C++ are on the platforms the project supports.  A datum is the number its bits spell.
-/
namespace Verif.Ieee

/-- A format: `p` trailing significand bits, `w` exponent bits. -/
structure Fmt where
  p : Nat
  w : Nat
  p_pos : 1 ≤ p
  w_two : 2 ≤ w

/-- binary32. -/
def binary32 : Fmt := ⟨23, 8, by decide, by decide⟩
/-- binary64. -/
def binary64 : Fmt := ⟨52, 11, by decide, by decide⟩

variable (f : Fmt)

/-- Sign bit, exponent field and trailing significand field (3.4). -/
def Fmt.neg (b : Nat) : Bool := decide (b / 2 ^ (f.p + f.w) % 2 = 1)
def Fmt.expo (b : Nat) : Nat := b / 2 ^ f.p % 2 ^ f.w
def Fmt.frac (b : Nat) : Nat := b % 2 ^ f.p

def Fmt.IsNaN (b : Nat) : Prop := f.expo b = 2 ^ f.w - 1 ∧ f.frac b ≠ 0
def Fmt.IsInf (b : Nat) : Prop := f.expo b = 2 ^ f.w - 1 ∧ f.frac b = 0
def Fmt.IsFinite (b : Nat) : Prop := f.expo b ≠ 2 ^ f.w - 1

/-- Exponent of the last place of the smallest numbers: -149 for binary32, -1074 for binary64. -/
def Fmt.emin : Int := 2 - 2 ^ (f.w - 1) - f.p

/-- The number a finite datum stands for (3.4). -/
def Fmt.value (b : Nat) : ℚ :=
  (if f.neg b then -1 else 1) *
    (if f.expo b = 0 then (f.frac b : ℚ) * 2 ^ f.emin else ((2 ^ f.p + f.frac b : Nat) : ℚ) * 2 ^ (f.emin + (f.expo b - 1 : Nat)))

/-- From here on numbers overflow: halfway between the largest finite number and the next power of two (4.3.1). -/
def Fmt.overflow : ℚ := 2 ^ (2 ^ (f.w - 1)) - 2 ^ ((2 ^ (f.w - 1) : Int) - f.p - 2)

/-- `b` is the number `q` rounded to nearest, ties to even (4.3.1).  The sign of a zero is not part of this. -/
structure Fmt.Rounds (b : Nat) (q : ℚ) : Prop where
  /-- Too large: infinity. -/
  inf : f.overflow ≤ |q| → f.IsInf b
  finite : |q| < f.overflow → f.IsFinite b
  /-- No other number of the format is nearer. -/
  nearest : |q| < f.overflow → ∀ c, f.IsFinite c → |f.value b - q| ≤ |f.value c - q|
  /-- If another is as near, the last bit is 0. -/
  even : |q| < f.overflow → ∀ c, f.IsFinite c → f.value c ≠ f.value b → |f.value c - q| = |f.value b - q| → b % 2 = 0
  sign : q ≠ 0 → f.neg b = decide (q < 0)

/-- A number, with the sign `s` if it is zero. -/
structure Fmt.Is (b : Nat) (q : ℚ) (s : Bool) : Prop where
  rounds : f.Rounds b q
  zero : q = 0 → f.neg b = s

/-- Sum (5.4.1, 6.1, 6.2, 6.3: an exact zero sum is negative only if both operands are). -/
structure Fmt.IsSum (a b r : Nat) : Prop where
  numbers : f.IsFinite a → f.IsFinite b → f.Is r (f.value a + f.value b) (f.neg a && f.neg b)
  nan : f.IsNaN a ∨ f.IsNaN b → f.IsNaN r
  opposite : f.IsInf a → f.IsInf b → f.neg a ≠ f.neg b → f.IsNaN r
  left : f.IsInf a → ¬ f.IsNaN b → (f.IsInf b → f.neg a = f.neg b) → f.IsInf r ∧ f.neg r = f.neg a
  right : f.IsInf b → ¬ f.IsNaN a → (f.IsInf a → f.neg a = f.neg b) → f.IsInf r ∧ f.neg r = f.neg b

/-- `b` with the other sign. -/
def Fmt.Opposite (b c : Nat) : Prop := f.neg c = !f.neg b ∧ f.expo c = f.expo b ∧ f.frac c = f.frac b

/-- Difference: the sum with the opposite. -/
def Fmt.IsDifference (a b r : Nat) : Prop := ∃ c, f.Opposite b c ∧ f.IsSum a c r

/-- Product (5.4.1, 6.1-6.3). -/
structure Fmt.IsProduct (a b r : Nat) : Prop where
  numbers : f.IsFinite a → f.IsFinite b → f.Is r (f.value a * f.value b) (f.neg a ^^ f.neg b)
  nan : f.IsNaN a ∨ f.IsNaN b → f.IsNaN r
  left : f.IsInf a → f.IsFinite b → (f.value b = 0 → f.IsNaN r) ∧ (f.value b ≠ 0 → f.IsInf r ∧ f.neg r = (f.neg a ^^ f.neg b))
  right : f.IsFinite a → f.IsInf b → (f.value a = 0 → f.IsNaN r) ∧ (f.value a ≠ 0 → f.IsInf r ∧ f.neg r = (f.neg a ^^ f.neg b))
  both : f.IsInf a → f.IsInf b → f.IsInf r ∧ f.neg r = (f.neg a ^^ f.neg b)

/-- Quotient (5.4.1, 6.1-6.3, 7.3). -/
structure Fmt.IsQuotient (a b r : Nat) : Prop where
  numbers : f.IsFinite a → f.IsFinite b → f.value b ≠ 0 → f.Is r (f.value a / f.value b) (f.neg a ^^ f.neg b)
  zero : f.IsFinite a → f.IsFinite b → f.value b = 0 → (f.value a = 0 → f.IsNaN r) ∧ (f.value a ≠ 0 → f.IsInf r ∧ f.neg r = (f.neg a ^^ f.neg b))
  nan : f.IsNaN a ∨ f.IsNaN b → f.IsNaN r
  left : f.IsInf a → f.IsFinite b → f.IsInf r ∧ f.neg r = (f.neg a ^^ f.neg b)
  right : f.IsFinite a → f.IsInf b → f.IsFinite r ∧ f.value r = 0 ∧ f.neg r = (f.neg a ^^ f.neg b)
  both : f.IsInf a → f.IsInf b → f.IsNaN r

/-- `a < b`, `a = b` and `a ≤ b` (5.11): NaN is unordered, the zeros are equal. -/
def Fmt.Less (a b : Nat) : Prop :=
  ¬ f.IsNaN a ∧ ¬ f.IsNaN b ∧ (f.IsFinite a ∧ f.IsFinite b ∧ f.value a < f.value b ∨
    f.IsInf a ∧ f.neg a = true ∧ (f.IsInf b → f.neg b = false) ∨ f.IsInf b ∧ f.neg b = false ∧ (f.IsInf a → f.neg a = true))
def Fmt.Equal (a b : Nat) : Prop :=
  f.IsFinite a ∧ f.IsFinite b ∧ f.value a = f.value b ∨ f.IsInf a ∧ f.IsInf b ∧ f.neg a = f.neg b

end Verif.Ieee
