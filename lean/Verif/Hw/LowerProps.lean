import Verif.Hw.Lower
import Mathlib.Tactic.NormNum
import Mathlib.Tactic.Positivity
import Mathlib.Tactic.Linarith
import Mathlib.Tactic.Ring
/-
Properties of shifts, bit ranges, concatenation and multiplexers in hardware (C42, C09 value part, C55).
-/
namespace Verif.Hw

theorem pow_pos' (k : Nat) : 0 < 2 ^ k := Nat.pos_of_ne_zero (by positivity)

theorem num_neg (w n : Nat) (h : 2 ^ w ≤ 2 * n) : FVal.num ⟨true, w, n⟩ = (n : Int) - 2 ^ w := by
  simp [FVal.num, h]

theorem num_pos (w n : Nat) (h : ¬ 2 ^ w ≤ 2 * n) : FVal.num ⟨true, w, n⟩ = (n : Int) := by
  simp [FVal.num, h]

/-- **C42, unsigned left shift.** The hardware multiplies by 2^k modulo 2^w, for every width, amount and value. -/
theorem shl_unsigned (x : FVal) (hx : x.sgn = false) (hw : 0 < x.w) (k : Nat) :
    lowerShl x k = some ⟨false, x.w, x.n * 2 ^ k % 2 ^ x.w⟩ := by
  have h1 : x.w - 1 + 1 = x.w := by omega
  have h2 : x.w - 1 < x.w + k := by omega
  simp [lowerShl, hx, FVal.shl, FVal.bits, h1, h2]

example : lowerShl ⟨false, 8, 0xC1⟩ 2 = some ⟨false, 8, 0x04⟩ := by decide

/-- **C42, unsigned right shift.** The hardware divides by 2^k, rounding down; also for amounts beyond the width. -/
theorem shr_unsigned (x : FVal) (hx : x.sgn = false) (k : Nat) :
    lowerShr x k = ⟨false, x.w, x.n / 2 ^ k⟩ := by
  unfold lowerShr FVal.shr FVal.pad
  simp only [hx, Bool.false_eq_true, false_and, if_false]
  by_cases h : x.w - k < x.w
  · simp [h]
  · have : x.w - k = x.w := by omega
    simp [this]

example : lowerShr ⟨false, 8, 0xC1⟩ 3 = ⟨false, 8, 0x18⟩ := by decide

/-- **C42, signed right shift.** The hardware shift is arithmetic: the result is the number divided by 2^k rounding towards
minus infinity, at the same width. -/
theorem shr_signed (x : FVal) (hx : x.sgn = true) (hw : 0 < x.w) (hn : x.n < 2 ^ x.w) (k : Nat) :
    (lowerShr x k).sgn = true ∧ (lowerShr x k).w = x.w ∧ (lowerShr x k).n < 2 ^ x.w ∧
      (lowerShr x k).num = x.num / 2 ^ k := by
  have hp : (2 : Nat) ^ x.w = 2 * 2 ^ (x.w - 1) := by
    rw [← Nat.pow_succ']; congr 1; omega
  have hpz : (2 : Int) ^ x.w = 2 * 2 ^ (x.w - 1) := by exact_mod_cast hp
  have hpp : 0 < 2 ^ (x.w - 1) := pow_pos' _
  by_cases hk : x.w ≤ k
  · -- everything but the sign is shifted out
    have hs : x.shr k = ⟨true, 1, x.n / 2 ^ (x.w - 1)⟩ := by simp [FVal.shr, hx, hk]
    have hbig : (2 : Int) ^ x.w ≤ 2 ^ k := by exact_mod_cast Nat.pow_le_pow_right (by omega) hk
    have hkpos : (0 : Int) < 2 ^ k := by positivity
    unfold lowerShr
    rw [hs]
    by_cases hneg : 2 ^ (x.w - 1) ≤ x.n
    · have hd : x.n / 2 ^ (x.w - 1) = 1 := by
        apply Nat.div_eq_of_lt_le <;> omega
      have hnum : x.num = (x.n : Int) - 2 ^ x.w := by
        have : 2 ^ x.w ≤ 2 * x.n := by omega
        simp [FVal.num, hx, this]
      have hdiv : x.num / 2 ^ k = -1 := by
        rw [hnum]
        have h1 : (x.n : Int) < 2 ^ x.w := by exact_mod_cast hn
        have h2 : (0 : Int) ≤ x.n := by positivity
        rw [Int.ediv_eq_iff_of_pos hkpos]
        constructor <;> linarith
      rw [hd, hdiv]
      by_cases hw1 : 1 < x.w
      · have : (2 : Nat) ^ 1 ≤ 2 ^ x.w := Nat.pow_le_pow_right (by omega) (by omega)
        have e : 1 + (2 ^ x.w - 2 ^ 1) = 2 ^ x.w - 1 := by omega
        have hz : ((2 ^ x.w - 1 : Nat) : Int) = 2 ^ x.w - 1 := by
          rw [Nat.cast_sub (by omega)]; push_cast; ring
        have h3 : (2 : Nat) ^ x.w ≤ 2 * (2 ^ x.w - 1) := by omega
        have hpad : FVal.pad ⟨true, 1, 1⟩ x.w = ⟨true, x.w, 2 ^ x.w - 1⟩ := by
          simp only [FVal.pad, hw1, if_true]
          rw [if_pos ⟨trivial, by norm_num⟩, e]
        rw [hpad]
        refine ⟨rfl, rfl, by show 2 ^ x.w - 1 < 2 ^ x.w; omega, ?_⟩
        rw [num_neg _ _ h3, hz]
        ring
      · have hw1' : x.w = 1 := by omega
        simp [FVal.pad, hw1', FVal.num]
    · have hd : x.n / 2 ^ (x.w - 1) = 0 := Nat.div_eq_of_lt (by omega)
      have hnum : x.num = (x.n : Int) := by
        have : ¬ 2 ^ x.w ≤ 2 * x.n := by omega
        simp [FVal.num, this]
      have hdiv : x.num / 2 ^ k = 0 := by
        rw [hnum]
        have h1 : (x.n : Int) < 2 ^ x.w := by exact_mod_cast hn
        exact Int.ediv_eq_zero_of_lt (by positivity) (by linarith)
      rw [hd, hdiv]
      by_cases hw1 : 1 < x.w
      · simp [FVal.pad, hw1, FVal.num]
      · have hw1' : x.w = 1 := by omega
        simp [FVal.pad, hw1', FVal.num]
  · have hk' : k < x.w := by omega
    have hs : x.shr k = ⟨true, x.w - k, x.n / 2 ^ k⟩ := by simp [FVal.shr, hx, hk]
    have hsplit : (2 : Nat) ^ x.w = 2 ^ (x.w - k) * 2 ^ k := by rw [← Nat.pow_add]; congr 1; omega
    have hsplit1 : (2 : Nat) ^ (x.w - 1) = 2 ^ (x.w - k - 1) * 2 ^ k := by rw [← Nat.pow_add]; congr 1; omega
    have hhalf : (2 : Nat) ^ (x.w - k) = 2 * 2 ^ (x.w - k - 1) := by rw [← Nat.pow_succ']; congr 1; omega
    have hkp : 0 < 2 ^ k := pow_pos' k
    have hlt : x.n / 2 ^ k < 2 ^ (x.w - k) := by
      rw [Nat.div_lt_iff_lt_mul hkp]; rw [← hsplit]; exact hn
    have hle : (2 : Nat) ^ (x.w - k) ≤ 2 ^ x.w := Nat.pow_le_pow_right (by omega) (by omega)
    have hsignIff : 2 ^ (x.w - k) ≤ 2 * (x.n / 2 ^ k) ↔ 2 ^ x.w ≤ 2 * x.n := by
      rw [hhalf, hp, Nat.mul_le_mul_left_iff (by omega), Nat.mul_le_mul_left_iff (by omega), Nat.le_div_iff_mul_le hkp,
        ← hsplit1]
    have hdivZ : ((x.n / 2 ^ k : Nat) : Int) = (x.n : Int) / 2 ^ k := by push_cast; rfl
    unfold lowerShr
    rw [hs]
    by_cases hneg : 2 ^ x.w ≤ 2 * x.n
    · have hneg' := hsignIff.mpr hneg
      have hnum : x.num / 2 ^ k = (x.n : Int) / 2 ^ k - 2 ^ (x.w - k) := by
        have hz : (2 : Int) ^ x.w = 2 ^ (x.w - k) * 2 ^ k := by exact_mod_cast hsplit
        have : x.num = (x.n : Int) - 2 ^ x.w := by simp [FVal.num, hx, hneg]
        rw [this, hz, Int.sub_mul_ediv_right _ _ (by positivity)]
      rw [hnum]
      by_cases hlt2 : x.w - k < x.w
      · simp only [FVal.pad, hlt2, if_true, hneg', and_self]
        refine ⟨trivial, trivial, by omega, ?_⟩
        have h3 : 2 ^ x.w ≤ 2 * (x.n / 2 ^ k + (2 ^ x.w - 2 ^ (x.w - k))) := by omega
        simp only [FVal.num, h3, and_self, if_true]
        rw [Nat.cast_add, Nat.cast_sub hle, hdivZ]
        push_cast
        ring
      · have e : x.w - k = x.w := by omega
        have hk0 : k = 0 := by omega
        subst hk0
        simp [FVal.pad, FVal.num, hneg, hn]
    · have hneg' : ¬ 2 ^ (x.w - k) ≤ 2 * (x.n / 2 ^ k) := fun h => hneg (hsignIff.mp h)
      have hnum : x.num / 2 ^ k = (x.n : Int) / 2 ^ k := by simp [FVal.num, hneg]
      rw [hnum]
      have h3 : ¬ 2 ^ x.w ≤ 2 * (x.n / 2 ^ k) := by
        have : 2 * (x.n / 2 ^ k) ≤ 2 * x.n := Nat.mul_le_mul_left 2 (Nat.div_le_self _ _)
        omega
      by_cases hlt2 : x.w - k < x.w
      · simp only [FVal.pad, hlt2, if_true, hneg', and_false, if_false]
        refine ⟨trivial, trivial, by omega, ?_⟩
        simp only [FVal.num, h3, and_false, if_false]
        exact hdivZ
      · have hk0 : k = 0 := by omega
        subst hk0
        simp [FVal.pad, FVal.num, hneg, hn]

example : lowerShr ⟨true, 8, 0xF0⟩ 2 = ⟨true, 8, 0xFC⟩ ∧ lowerShr ⟨true, 8, 0xF0⟩ 20 = ⟨true, 8, 0xFF⟩ := by decide

/-- What the signed left shift computes: the sign bit stays, the other bits are shifted among themselves. -/
theorem shl_signed_bits (x : FVal) (hx : x.sgn = true) (hw : 2 ≤ x.w) (hn : x.n < 2 ^ x.w) (k : Nat) :
    lowerShl x k = some ⟨true, x.w, x.n / 2 ^ (x.w - 1) * 2 ^ (x.w - 1) + x.n * 2 ^ k % 2 ^ (x.w - 1)⟩ := by
  have h1 : x.w - 1 < x.w := by omega
  have h2 : ¬ x.w < 2 := by omega
  have h3 : x.w - 2 < x.w + k := by omega
  have h4 : x.w - 2 + 1 = x.w - 1 := by omega
  have h5 : 1 + (x.w - 1) = x.w := by omega
  have hp : (2 : Nat) ^ x.w = 2 * 2 ^ (x.w - 1) := by rw [← Nat.pow_succ']; congr 1; omega
  have h6 : x.n / 2 ^ (x.w - 1) % 2 = x.n / 2 ^ (x.w - 1) := by
    apply Nat.mod_eq_of_lt
    rw [Nat.div_lt_iff_lt_mul (pow_pos' _)]; omega
  simp [lowerShl, hx, FVal.shl, FVal.bits, FVal.cat, FVal.asSInt, h1, h2, h3, h4, h5, h6]

/-- **C42, signed left shift (partial).** If the product with 2^k is representable at the operand's width (at least 2), the
hardware computes it.  Missing: overflowing products; there the hardware keeps the original sign bit instead of computing
modulo 2^w (`shl_signed_overflow_wrong`). -/
theorem shl_signed_partial (x : FVal) (hx : x.sgn = true) (hw : 2 ≤ x.w) (hn : x.n < 2 ^ x.w) (k : Nat)
    (hlo : -(2 : Int) ^ (x.w - 1) ≤ x.num * 2 ^ k) (hhi : x.num * 2 ^ k < 2 ^ (x.w - 1)) :
    ∃ r, lowerShl x k = some r ∧ r.sgn = true ∧ r.w = x.w ∧ r.n < 2 ^ x.w ∧ r.num = x.num * 2 ^ k := by
  have hp : (2 : Nat) ^ x.w = 2 * 2 ^ (x.w - 1) := by rw [← Nat.pow_succ']; congr 1; omega
  have hpz : (2 : Int) ^ x.w = 2 * 2 ^ (x.w - 1) := by exact_mod_cast hp
  have hk1 : (1 : Int) ≤ 2 ^ k := by exact_mod_cast pow_pos' k
  refine ⟨_, shl_signed_bits x hx hw hn k, rfl, rfl, ?_⟩
  have hmod : x.n * 2 ^ k % 2 ^ (x.w - 1) < 2 ^ (x.w - 1) := Nat.mod_lt _ (pow_pos' _)
  by_cases hneg : 2 ^ x.w ≤ 2 * x.n
  · have hd : x.n / 2 ^ (x.w - 1) = 1 := by apply Nat.div_eq_of_lt_le <;> omega
    have hnum : x.num = (x.n : Int) - 2 ^ x.w := by simp [FVal.num, hx, hneg]
    have hprod : (x.n : Int) * 2 ^ k = x.num * 2 ^ k + 2 ^ (x.w - 1) * (2 * 2 ^ k) := by rw [hnum, hpz]; ring
    have hneg0 : x.num * 2 ^ k ≤ -1 := by
      have h1 : x.num ≤ -1 := by
        have : (x.n : Int) < 2 ^ x.w := by exact_mod_cast hn
        omega
      nlinarith
    have hm : ((x.n * 2 ^ k % 2 ^ (x.w - 1) : Nat) : Int) = x.num * 2 ^ k + 2 ^ (x.w - 1) := by
      have he : ((x.n : Int) * 2 ^ k) % 2 ^ (x.w - 1) = x.num * 2 ^ k + 2 ^ (x.w - 1) := by
        rw [hprod, Int.add_mul_emod_self_left]
        rw [← Int.add_emod_right, Int.emod_eq_of_lt] <;> linarith
      rw [← he]; push_cast; rfl
    rw [hd]
    refine ⟨by simp only; omega, ?_⟩
    have h3 : 2 ^ x.w ≤ 2 * (1 * 2 ^ (x.w - 1) + x.n * 2 ^ k % 2 ^ (x.w - 1)) := by omega
    rw [num_neg _ _ h3, Nat.cast_add, hm, hpz]
    push_cast
    ring
  · have hd : x.n / 2 ^ (x.w - 1) = 0 := Nat.div_eq_of_lt (by omega)
    have hnum : x.num = (x.n : Int) := by simp [FVal.num, hneg]
    have hlt : x.n * 2 ^ k < 2 ^ (x.w - 1) := by
      rw [hnum] at hhi; exact_mod_cast hhi
    rw [hd, Nat.mod_eq_of_lt hlt]
    refine ⟨by simp only; omega, ?_⟩
    rw [hnum]
    have h3 : ¬ 2 ^ x.w ≤ 2 * (0 * 2 ^ (x.w - 1) + x.n * 2 ^ k) := by omega
    rw [num_pos _ _ h3]
    push_cast; ring

example : lowerShl ⟨true, 8, 0xFB⟩ 3 = some ⟨true, 8, 0xD8⟩ := by decide   -- -5 * 8 = -40

/-- **C42 is false for overflowing signed left shifts**: `64 << 1` at 8 bits is 0 in hardware, 128 mod 2^8 in two's complement
(and in the simulator). -/
theorem shl_signed_overflow_wrong :
    lowerShl ⟨true, 8, 0x40⟩ 1 = some ⟨true, 8, 0⟩ ∧ (0x40 * 2 ^ 1) % 2 ^ 8 = 0x80 := by decide

/-- More generally, whenever the bit shifted into the sign position differs from the old sign, the hardware result is not the
two's complement one. -/
theorem shl_signed_not_modular (x : FVal) (hx : x.sgn = true) (hw : 2 ≤ x.w) (hn : x.n < 2 ^ x.w) (k : Nat)
    (h : x.n * 2 ^ k / 2 ^ (x.w - 1) % 2 ≠ x.n / 2 ^ (x.w - 1)) :
    lowerShl x k ≠ some ⟨true, x.w, x.n * 2 ^ k % 2 ^ x.w⟩ := by
  rw [shl_signed_bits x hx hw hn k]
  intro he
  simp only [Option.some.injEq, FVal.mk.injEq, true_and] at he
  have hp : (2 : Nat) ^ x.w = 2 ^ (x.w - 1) * 2 := by rw [← Nat.pow_succ]; congr 1; omega
  rw [hp, Nat.mod_mul] at he
  apply h
  have hpos : 0 < 2 ^ (x.w - 1) := pow_pos' _
  have : x.n / 2 ^ (x.w - 1) * 2 ^ (x.w - 1) = 2 ^ (x.w - 1) * (x.n * 2 ^ k / 2 ^ (x.w - 1) % 2) := by omega
  rw [Nat.mul_comm] at this
  exact (Nat.eq_of_mul_eq_mul_left hpos this).symm

/-- A signed 1-bit operand cannot be shifted left: the emitted primitive is rejected. -/
theorem shl_signed_width_one_rejected (n k : Nat) : lowerShl ⟨true, 1, n⟩ k = none := by
  simp [lowerShl, FVal.bits]

/-- **C09.** In the generated hardware the high part of a concatenation is its first operand and the low part its second. -/
theorem cat_parts (a b : FVal) (hs : a.sgn = b.sgn) (ha : a.n < 2 ^ a.w) (hb : b.n < 2 ^ b.w) (hwa : 0 < a.w)
    (hwb : 0 < b.w) :
    ∃ c, lowerCat a b = some c ∧ c.w = a.w + b.w ∧ c.n < 2 ^ (a.w + b.w) ∧
      lowerBits c (a.w + b.w - 1) b.w = some ⟨false, a.w, a.n⟩ ∧ lowerBits c (b.w - 1) 0 = some ⟨false, b.w, b.n⟩ := by
  refine ⟨⟨false, a.w + b.w, a.n * 2 ^ b.w + b.n⟩, by simp [lowerCat, FVal.cat, hs], rfl, ?_, ?_, ?_⟩
  · rw [Nat.pow_add]
    have h : (a.n + 1) * 2 ^ b.w ≤ 2 ^ a.w * 2 ^ b.w := Nat.mul_le_mul_right _ ha
    rw [Nat.succ_mul] at h
    show a.n * 2 ^ b.w + b.n < _
    omega
  · have h1 : ¬ a.w + b.w - 1 < b.w := by omega
    have h2 : b.w ≤ a.w + b.w - 1 ∧ a.w + b.w - 1 < a.w + b.w := by omega
    have h3 : a.w + b.w - 1 - b.w + 1 = a.w := by omega
    have h4 : (a.n * 2 ^ b.w + b.n) / 2 ^ b.w = a.n := by
      rw [Nat.mul_comm, Nat.mul_add_div (pow_pos' _), Nat.div_eq_of_lt hb, Nat.add_zero]
    simp [lowerBits, h1, FVal.bits, h2, h3, h4, Nat.mod_eq_of_lt ha]
  · have h2 : b.w - 1 < a.w + b.w := by omega
    have h3 : b.w - 1 + 1 = b.w := by omega
    have h4 : (a.n * 2 ^ b.w + b.n) % 2 ^ b.w = b.n := by
      rw [Nat.mul_comm, Nat.mul_add_mod, Nat.mod_eq_of_lt hb]
    simp [lowerBits, FVal.bits, h2, h3, h4]

example : lowerCat ⟨false, 4, 0xA⟩ ⟨false, 8, 0x5C⟩ = some ⟨false, 12, 0xA5C⟩ := by decide

/-- Bit `i` of the range `[left : right]` is bit `right + i` of the operand. -/
theorem bits_select (x : FVal) (left right : Nat) (h : right ≤ left) (hl : left < x.w) :
    ∃ r, lowerBits x left right = some r ∧ r.w = left - right + 1 ∧
      ∀ i < left - right + 1, r.n.testBit i = x.n.testBit (right + i) := by
  have h1 : ¬ left < right := by omega
  refine ⟨⟨false, left - right + 1, x.n / 2 ^ right % 2 ^ (left - right + 1)⟩, by simp [lowerBits, h1, FVal.bits, h, hl], rfl, ?_⟩
  intro i hi
  simp [Nat.testBit_mod_two_pow, hi, Nat.testBit_div_two_pow, Nat.add_comm]

/-- The concatenation of all bits from `k` up with the bits below `k` is the operand again. -/
theorem cat_of_ranges (x : FVal) (hx : x.n < 2 ^ x.w) (k : Nat) (hk : 0 < k) (hk2 : k < x.w) :
    ∃ hi lo, lowerBits x (x.w - 1) k = some hi ∧ lowerBits x (k - 1) 0 = some lo ∧
      lowerCat hi lo = some ⟨false, x.w, x.n⟩ := by
  have h1 : ¬ x.w - 1 < k := by omega
  have h2 : k ≤ x.w - 1 ∧ x.w - 1 < x.w := by omega
  have h3 : x.w - 1 - k + 1 = x.w - k := by omega
  have h4 : k - 1 < x.w := by omega
  have h5 : k - 1 + 1 = k := by omega
  have h6 : x.n / 2 ^ k < 2 ^ (x.w - k) := by
    rw [Nat.div_lt_iff_lt_mul (pow_pos' _), ← Nat.pow_add, show x.w - k + k = x.w by omega]
    exact hx
  refine ⟨⟨false, x.w - k, x.n / 2 ^ k⟩, ⟨false, k, x.n % 2 ^ k⟩, ?_, ?_, ?_⟩
  · simp [lowerBits, h1, FVal.bits, h2, h3, Nat.mod_eq_of_lt h6]
  · simp [lowerBits, FVal.bits, h4, h5]
  · have e : x.w - k + k = x.w := by omega
    simp [lowerCat, FVal.cat, e, Nat.div_add_mod']

/-- **C55 is false of the lowering**: with the bounds reversed the exchange loses the larger bound, so a 1-bit value is selected
whatever the range. -/
theorem reversed_range_selects_one_bit (x : FVal) (left right : Nat) (h : left < right) (hr : left < x.w) :
    ∃ r, lowerBits x left right = some r ∧ r.w = 1 := by
  refine ⟨⟨false, 1, x.n / 2 ^ left % 2⟩, ?_, rfl⟩
  simp [lowerBits, h, FVal.bits, hr]

/-- **Mux in hardware.** The alternative in position `i` from the end is selected by the control value `i`; a control value
not below the number of alternatives selects nothing defined. -/
theorem mux_selects (control : FVal) (vars : List FVal) :
    (∀ h : control.n < vars.length, lowerMux control vars = some (vars[vars.length - 1 - control.n]'(by omega))) ∧
      (vars.length ≤ control.n → lowerMux control vars = none) := by
  have e : lowerMux control vars = vars.reverse[control.n]? := by
    cases hs : control.sgn <;> simp [lowerMux, hs, multibitMux, FVal.asUInt]
  constructor
  · intro h
    rw [e, List.getElem?_eq_getElem (by simpa using h), List.getElem_reverse]
  · intro h
    rw [e]
    simp [h]

example : lowerMux ⟨false, 1, 0⟩ [⟨false, 8, 7⟩, ⟨false, 8, 9⟩] = some ⟨false, 8, 9⟩ := by decide

end Verif.Hw
