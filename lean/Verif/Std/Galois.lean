import Verif.Std.Model
import Mathlib.Algebra.Polynomial.Div
import Mathlib.Algebra.Field.ZMod
import Mathlib.Algebra.CharP.Two
import Mathlib.Algebra.Polynomial.Degree.Operations
import Mathlib.Tactic.LinearCombination
import Mathlib.Tactic.ComputeDegree
/-
C43: `Galois8Mul` multiplies in GF(2)[x] / (x^8 + x^7 + x^6 + x + 1).
-/
open Polynomial
namespace Verif.Std

/-- Specification: the polynomial over GF(2) whose coefficient of `x^i` is bit `i`. -/
noncomputable def poly {w : Nat} (a : BitVec w) : (ZMod 2)[X] :=
  ∑ i ∈ Finset.range w, if a.getLsbD i then X ^ i else 0

/-- Specification: the field polynomial of GOST R 34.12-2015, x^8 + x^7 + x^6 + x + 1. -/
noncomputable def fieldPoly : (ZMod 2)[X] := X ^ 8 + X ^ 7 + X ^ 6 + X + 1

theorem two0 (p : (ZMod 2)[X]) : p + p = 0 := CharTwo.add_self_eq_zero p

theorem poly_xor {w : Nat} (a b : BitVec w) : poly (a ^^^ b) = poly a + poly b := by
  unfold poly
  rw [← Finset.sum_add_distrib]
  apply Finset.sum_congr rfl
  intro i _
  rw [BitVec.getLsbD_xor]
  cases a.getLsbD i <;> cases b.getLsbD i <;> simp [two0]

theorem poly_zero {w : Nat} : poly (0#w) = 0 := by simp [poly]

/-- Bit `i` as a constant polynomial. -/
noncomputable def bitP {w : Nat} (a : BitVec w) (i : Nat) : (ZMod 2)[X] := if a.getLsbD i then 1 else 0

theorem poly8 (a : BitVec 8) : poly a =
    bitP a 0 + bitP a 1 * X + bitP a 2 * X ^ 2 + bitP a 3 * X ^ 3 + bitP a 4 * X ^ 4 + bitP a 5 * X ^ 5 + bitP a 6 * X ^ 6 +
      bitP a 7 * X ^ 7 := by
  simp [poly, Finset.sum_range_succ, bitP]

theorem poly_coeff {w : Nat} (a : BitVec w) (i : Nat) (h : i < w) : (poly a).coeff i = if a.getLsbD i then 1 else 0 := by
  unfold poly
  rw [finset_sum_coeff, Finset.sum_eq_single i]
  · split <;> simp
  · intro b _ hb
    split
    · rw [coeff_X_pow]; simp [Ne.symm hb]
    · simp
  · intro hn; simp at hn; omega

theorem poly_injective {w : Nat} {a b : BitVec w} (h : poly a = poly b) : a = b := by
  apply BitVec.eq_of_getLsbD_eq
  intro i hi
  have := congrArg (fun p => p.coeff i) h
  simp only [poly_coeff a i hi, poly_coeff b i hi] at this
  cases ha : a.getLsbD i <;> cases hb : b.getLsbD i <;> simp_all

theorem poly_degree {w : Nat} (a : BitVec w) : (poly a).degree < w := by
  unfold poly
  apply lt_of_le_of_lt (degree_sum_le _ _)
  rw [Finset.sup_lt_iff (by exact WithBot.bot_lt_coe w)]
  intro i hi
  simp only [Finset.mem_range] at hi
  split
  · rw [degree_X_pow]; exact_mod_cast hi
  · simp

theorem fieldPoly_monic : fieldPoly.Monic := by
  unfold fieldPoly; monicity!

theorem fieldPoly_degree : fieldPoly.degree = 8 := by
  unfold fieldPoly; compute_degree!

theorem poly_split (r : BitVec 8) : poly r = bitP r 0 + X * poly (r >>> 1) := by
  have e : ∀ i, bitP (r >>> 1) i = bitP r (1 + i) := fun i => by simp [bitP]
  have h8 : bitP r 8 = 0 := by simp [bitP]
  rw [poly8, poly8]
  simp only [e, Nat.add_zero, Nat.reduceAdd, h8]
  ring

theorem poly_double (l : BitVec 8) :
    poly ((l <<< 1) ^^^ (if l.getLsbD 7 then 195#8 else 0#8)) = X * poly l + bitP l 7 * fieldPoly := by
  have h195 : poly (195#8) = 1 + X + X ^ 6 + X ^ 7 := by rw [poly8]; simp [bitP, BitVec.getLsbD, Nat.testBit]
  have hm : poly (if l.getLsbD 7 then 195#8 else 0#8) = bitP l 7 * (1 + X + X ^ 6 + X ^ 7) := by
    unfold bitP
    cases l.getLsbD 7 <;> simp [h195, poly_zero]
  have e0 : bitP (l <<< 1) 0 = 0 := by simp [bitP]
  have e : ∀ i, i < 7 → bitP (l <<< 1) (i + 1) = bitP l i := fun i h => by
    have h8 : i + 1 < 8 := by omega
    simp only [bitP, BitVec.getLsbD_shiftLeft, h8, decide_true, Bool.true_and, Nat.add_sub_cancel]; simp
  rw [poly_xor, hm, poly8 (l <<< 1), poly8 l, e0, e 0 (by omega), e 1 (by omega), e 2 (by omega), e 3 (by omega), e 4 (by omega),
    e 5 (by omega), e 6 (by omega), fieldPoly]
  have t := two0 (bitP l 7 * X ^ 8)
  linear_combination -t

theorem mux_bit (b : BitVec 8) (k : Nat) (x y : BitVec 8) :
    mux (b.extractLsb' k 1) [x, y] = if b.getLsbD k then y else x := by
  have : (b.extractLsb' k 1) = BitVec.ofBool (b.getLsbD k) := by
    apply BitVec.eq_of_getLsbD_eq
    intro i hi
    have : i = 0 := by omega
    subst this; simp
  rw [this]
  cases b.getLsbD k <;> simp [mux]

/-- The quantity preserved modulo the field polynomial. -/
noncomputable def acc (s : BitVec 8 × BitVec 8 × BitVec 8) : (ZMod 2)[X] := poly s.1 + poly s.2.1 * poly s.2.2

theorem acc_step (s : BitVec 8 × BitVec 8 × BitVec 8) : fieldPoly ∣ acc s - acc (galoisStep s) := by
  obtain ⟨c, l, r⟩ := s
  simp only [galoisStep, acc, mux_bit, poly_double]
  have hm : poly (if r.getLsbD 0 then l else 0#8) = bitP r 0 * poly l := by
    unfold bitP; cases r.getLsbD 0 <;> simp [poly_zero]
  rw [poly_xor, poly_split r, hm]
  exact ⟨-(bitP l 7 * poly (r >>> 1)), by ring⟩

theorem right_step (s : BitVec 8 × BitVec 8 × BitVec 8) : (galoisStep s).2.2 = s.2.2 >>> 1 := rfl

theorem acc_steps (s : BitVec 8 × BitVec 8 × BitVec 8) (l : List Nat) :
    fieldPoly ∣ acc s - acc (l.foldl (fun s _ => galoisStep s) s) ∧
      (l.foldl (fun s _ => galoisStep s) s).2.2 = s.2.2 >>> l.length := by
  induction l generalizing s with
  | nil => exact ⟨⟨0, by simp⟩, by simp⟩
  | cons x xs ih =>
    obtain ⟨h1, h2⟩ := ih (galoisStep s)
    refine ⟨?_, ?_⟩
    · have := dvd_add (acc_step s) h1
      simpa using this
    · rw [List.foldl_cons, h2, right_step, List.length_cons, Nat.add_comm, BitVec.shiftRight_add]

/-- **C43.** The kernel's result is the remainder of the product of the two polynomials modulo the field polynomial. -/
theorem galois8Mul_is_field_multiplication (a b : BitVec 8) :
    poly (galois8Mul a b) = (poly a * poly b) %ₘ fieldPoly := by
  obtain ⟨h1, h2⟩ := acc_steps (0#8, a, b) (List.range 7)
  unfold galois8Mul
  generalize hs : (List.range 7).foldl (fun s _ => galoisStep s) (0#8, a, b) = s at h1 h2
  obtain ⟨c, l, r⟩ := s
  simp only [mux_bit]
  simp only [acc, poly_zero, zero_add, List.length_range] at h1 h2
  have hr : poly r = if r.getLsbD 0 then 1 else 0 := by
    rw [poly8, h2]
    simp [bitP]
  symm
  apply (div_modByMonic_unique (f := poly a * poly b) _ _ fieldPoly_monic ⟨?_, ?_⟩).2
  · exact (h1.choose)
  · have := h1.choose_spec
    rw [poly_xor, ← this, hr]
    cases r.getLsbD 0 <;> simp [poly_zero]
  · rw [fieldPoly_degree]; exact poly_degree _

theorem gmul_dvd (a b : BitVec 8) : fieldPoly ∣ poly a * poly b - poly (galois8Mul a b) := by
  rw [galois8Mul_is_field_multiplication]
  have := modByMonic_add_div (poly a * poly b) fieldPoly
  exact ⟨(poly a * poly b) /ₘ fieldPoly, by linear_combination -this⟩

/-- Two bytes whose polynomials are congruent are equal. -/
theorem eq_of_dvd (a b : BitVec 8) (h : fieldPoly ∣ poly a - poly b) : a = b := by
  apply poly_injective
  have hd : (poly a - poly b).degree < fieldPoly.degree := by
    rw [fieldPoly_degree]
    exact lt_of_le_of_lt (degree_sub_le _ _) (max_lt (poly_degree a) (poly_degree b))
  have := eq_zero_of_dvd_of_degree_lt h hd
  exact sub_eq_zero.mp this

theorem galois8Mul_comm (a b : BitVec 8) : galois8Mul a b = galois8Mul b a := by
  apply poly_injective
  rw [galois8Mul_is_field_multiplication, galois8Mul_is_field_multiplication, mul_comm]

theorem galois8Mul_xor_right (a b c : BitVec 8) : galois8Mul a (b ^^^ c) = galois8Mul a b ^^^ galois8Mul a c := by
  apply poly_injective
  rw [galois8Mul_is_field_multiplication, poly_xor, poly_xor, galois8Mul_is_field_multiplication,
    galois8Mul_is_field_multiplication, mul_add, add_modByMonic]

theorem galois8Mul_assoc (a b c : BitVec 8) : galois8Mul (galois8Mul a b) c = galois8Mul a (galois8Mul b c) := by
  apply eq_of_dvd
  have h1 := gmul_dvd (galois8Mul a b) c
  have h2 := gmul_dvd a (galois8Mul b c)
  have h3 := (gmul_dvd a b).mul_right (poly c)
  have h4 := (gmul_dvd b c).mul_left (poly a)
  have := dvd_add (dvd_add (dvd_neg.mpr h1) h2) (dvd_add (dvd_neg.mpr h3) h4)
  convert this using 1
  ring

theorem galois8Mul_one (a : BitVec 8) : galois8Mul 1#8 a = a := by
  apply eq_of_dvd
  have h := gmul_dvd 1#8 a
  have e : poly (1#8) = 1 := by rw [poly8]; simp [bitP, BitVec.getLsbD, Nat.testBit]
  rw [e, one_mul] at h
  rw [← dvd_neg]; convert h using 1; ring

/-- The 2^k-th powers; `a^254` is the inverse. -/
def gsq (a : BitVec 8) : BitVec 8 := galois8Mul a a
def ginv (a : BitVec 8) : BitVec 8 :=
  let a2 := gsq a; let a4 := gsq a2; let a8 := gsq a4; let a16 := gsq a8; let a32 := gsq a16; let a64 := gsq a32
  let a128 := gsq a64
  galois8Mul a2 (galois8Mul a4 (galois8Mul a8 (galois8Mul a16 (galois8Mul a32 (galois8Mul a64 a128)))))

set_option maxRecDepth 20000 in
theorem ginv_table : (List.range 256).all (fun n => n == 0 || galois8Mul (BitVec.ofNat 8 n) (ginv (BitVec.ofNat 8 n)) == 1#8)
    = true := by decide +kernel

/-- **C43.** Every non-zero byte has a multiplicative inverse. -/
theorem galois8Mul_invertible (a : BitVec 8) (ha : a ≠ 0) : ∃ b, galois8Mul a b = 1#8 := by
  refine ⟨ginv a, ?_⟩
  have h := List.all_eq_true.mp ginv_table a.toNat (by simp; exact a.isLt)
  have e : BitVec.ofNat 8 a.toNat = a := by simp
  rw [e] at h
  simp only [Bool.or_eq_true, beq_iff_eq] at h
  rcases h with h | h
  · exact absurd (BitVec.eq_of_toNat_eq (by simpa using h)) ha
  · exact h

/-- **C43.** Multiplication by a non-zero constant is injective. -/
theorem galois8Mul_cancel (a x y : BitVec 8) (ha : a ≠ 0) (h : galois8Mul a x = galois8Mul a y) : x = y := by
  obtain ⟨b, hb⟩ := galois8Mul_invertible a ha
  have : galois8Mul b (galois8Mul a x) = galois8Mul b (galois8Mul a y) := by rw [h]
  rwa [← galois8Mul_assoc, ← galois8Mul_assoc, galois8Mul_comm b a, hb, galois8Mul_one, galois8Mul_one] at this

/-- Witness: 0x94 * 0x94 in the field. -/
example : galois8Mul 0x94#8 0x94#8 = 0xa4#8 := by decide +kernel

end Verif.Std
