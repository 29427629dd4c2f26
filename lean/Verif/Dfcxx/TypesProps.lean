import Verif.Dfcxx.Types
/- Properties C07, C08 and the width part of C09. -/
namespace Verif.Dfcxx

/-- `operator==` is equality of the described type. -/
theorem type_eq_iff (a b : DFType) : a.eq b = true ↔ a = b := by
  cases a <;> cases b <;> simp [DFType.eq, and_assoc]

/-- **C07.** Width of every type the user can build from in-range parameters is the documented one. -/
theorem totalBits_of_constructors (b : Nat) (hb : b < 2^16) :
    (dfUInt b).totalBits = b ∧ (dfRawBits b).totalBits = b ∧ dfBool.totalBits = 1 ∧
    (0 < b → ∃ t, dfInt b = some t ∧ t.totalBits = b ∧ t.isSigned = true) ∧
    (b = 0 → dfInt b = none) := by
  have h1 : u16 b = b := Nat.mod_eq_of_lt (by simpa using hb)
  refine ⟨?_, ?_, by decide, ?_, ?_⟩
  · simp [dfUInt, buildFixed, DFType.totalBits, h1, show u16 0 = 0 from rfl]
  · simp [dfRawBits, buildRawBits, DFType.totalBits, h1]
  · intro hpos
    refine ⟨_, by unfold dfInt; rw [h1, if_pos hpos], ?_, rfl⟩
    simp only [buildFixed, DFType.totalBits, u16] at *
    simp; omega
  · rintro rfl; rfl

/-- **C07 (float).** `dfFloat e f` is `1 + e + f` bits wide when both fields fit a byte. -/
theorem totalBits_dfFloat (e f : Nat) (he : e < 256) (hf : f < 256) :
    (dfFloat e f).totalBits = 1 + e + f := by
  simp only [dfFloat, buildFloat, DFType.totalBits, u16, u8]
  omega

/-- **C07 (float), exact law.** In general both fields are reduced modulo 256 although the API takes 16-bit
parameters; a wider field silently changes the type. -/
theorem totalBits_dfFloat_wraps (e f : Nat) (he : e < 2^16) (hf : f < 2^16) :
    (dfFloat e f).totalBits = 1 + e % 256 + f % 256 := by
  simp only [dfFloat, buildFloat, DFType.totalBits, u16, u8]
  omega

/-- The naive width claim for `dfFloat` is false of the code: 256 exponent bits give a 54-bit type. -/
theorem totalBits_dfFloat_not_exact : ¬ ∀ e f, e < 2^16 → f < 2^16 → (dfFloat e f).totalBits = 1 + e + f := by
  intro h
  have := h 256 53 (by decide) (by decide)
  revert this; decide

example : (dfFloat 11 53).totalBits = 65 ∧ (dfUInt 32).totalBits = 32 := by decide

/-- **C08.** `x(a,b)`: symmetric in the two positions; accepted exactly when both are bit positions of the
operand; the accepted range has its larger bound on the left and the result is `|a-b|+1` bits wide. -/
theorem bitsRange_spec (a b total : Nat) (ht : total < 2^16) :
    bitsRange a b total = bitsRange b a total ∧
    (bitsRange a b total = none ↔ ¬ (a < total ∧ b < total)) ∧
    (∀ l r t, bitsRange a b total = some (l, r, t) →
      l = max a b ∧ r = min a b ∧ t.totalBits = (max a b - min a b) + 1 ∧ t.isRawBits = true) := by
  unfold bitsRange
  refine ⟨?_, ?_, ?_⟩
  · by_cases h1 : a > b
    · have h2 : ¬ b > a := by omega
      simp [h1, h2]
    · by_cases h2 : b > a
      · simp [h1, h2]
      · have : a = b := by omega
        subst this; rfl
  · by_cases h1 : a > b <;> simp only [h1, if_true, if_false] <;> split <;> simp <;> omega
  · intro l r t
    by_cases h1 : a > b <;> simp only [h1, if_true, if_false] <;> split
    · intro h; simp at h
    · intro h
      simp only [Option.some.injEq, Prod.mk.injEq] at h
      obtain ⟨rfl, rfl, rfl⟩ := h
      refine ⟨by omega, by omega, ?_, rfl⟩
      simp only [buildRawBits, DFType.totalBits, u16]; omega
    · intro h; simp at h
    · intro h
      simp only [Option.some.injEq, Prod.mk.injEq] at h
      obtain ⟨rfl, rfl, rfl⟩ := h
      refine ⟨by omega, by omega, ?_, rfl⟩
      simp only [buildRawBits, DFType.totalBits, u16]; omega

example : bitsRange 3 7 8 = some (7, 3, .rawBits 5) ∧ bitsRange 8 0 8 = none := by decide

/-- **C09 (width).** Concatenation adds widths modulo 2^16, hence exactly when the sum fits. -/
theorem catType_width (a b : DFType) :
    (catType a b).totalBits = (a.totalBits + b.totalBits) % 2^16 := by
  simp [catType, buildRawBits, DFType.totalBits, u16]

theorem catType_width_exact (a b : DFType) (h : a.totalBits + b.totalBits < 2^16) :
    (catType a b).totalBits = a.totalBits + b.totalBits := by
  rw [catType_width, Nat.mod_eq_of_lt h]

/-- C09 fails at the 16-bit bound: two 32768-bit streams concatenate to a zero-width stream. -/
theorem catType_width_wraps : ∃ a b : DFType, a.totalBits = 32768 ∧ b.totalBits = 32768 ∧
    (catType a b).totalBits = 0 :=
  ⟨.rawBits 32768, .rawBits 32768, by decide, by decide, by decide⟩

end Verif.Dfcxx
