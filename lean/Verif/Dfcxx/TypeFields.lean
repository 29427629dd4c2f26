import Verif.Dfcxx.TypesProps
/-
C07, continued: not only the widths but the fields of the types are the ones asked for.
-/
namespace Verif.Dfcxx

/-- **C07 (fields).**  For parameters within the storage, the types are exactly the ones described: unsigned and signed integers without fraction, with the
sign bit counted in the width asked for; raw bits; one-bit unsigned for booleans; the exponent first and the fraction second. -/
theorem fields_of_constructors (b : Nat) (hb : b < 2 ^ 16) (e f : Nat) (he : e < 2 ^ 8) (hf : f < 2 ^ 8) :
    dfUInt b = .fixed false b 0 ∧ dfRawBits b = .rawBits b ∧ dfBool = .fixed false 1 0 ∧ (0 < b → dfInt b = some (.fixed true (b - 1) 0)) ∧
    dfFloat e f = .float e f := by
  have h1 : u16 b = b := Nat.mod_eq_of_lt (by simpa using hb)
  have h2 : ∀ x, x < 2 ^ 8 → u8 (u16 (u16 x)) = x := by
    intro x hx
    simp only [u16, u8]
    omega
  refine ⟨?_, ?_, rfl, ?_, ?_⟩
  · simp [dfUInt, buildFixed, h1, show u16 0 = 0 from rfl]
  · simp [dfRawBits, buildRawBits, h1]
  · intro hpos
    have h3 : u16 (b - 1) = b - 1 := Nat.mod_eq_of_lt (by omega)
    unfold dfInt
    rw [h1, if_pos hpos]
    simp [buildFixed, h3, show u16 0 = 0 from rfl]
  · simp only [dfFloat, buildFloat, h2 e he, h2 f hf]

/-- Non-trivial parameters: the half precision format, a byte, the widest integer. -/
example : dfFloat 5 10 = .float 5 10 ∧ dfInt 8 = some (.fixed true 7 0) ∧ dfUInt 65535 = .fixed false 65535 0 :=
  ⟨(fields_of_constructors 1 (by decide) 5 10 (by decide) (by decide)).2.2.2.2,
   (fields_of_constructors 8 (by decide) 0 0 (by decide) (by decide)).2.2.2.1 (by decide),
   (fields_of_constructors 65535 (by decide) 0 0 (by decide) (by decide)).1⟩

end Verif.Dfcxx
