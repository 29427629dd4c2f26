import Verif.Flat.IdctExact
import Verif.Flat.IdctInt
import Mathlib.Tactic.IntervalCases
/-
How far the reference transform in integers is from the inverse discrete cosine transform.
-/
namespace Verif.Flat
open Real

/-- cos (n π / 16) -/
noncomputable def cs (n : ℕ) : ℝ := cos (n * π / 16)

theorem dctCos_cs (x u : ℕ) : dctCos x u = cs ((2 * x + 1) * u) := by unfold dctCos cs; push_cast; rfl

theorem cs_period (n : ℕ) : cs (n + 32) = cs n := by
  unfold cs
  rw [show ((n + 32 : ℕ) : ℝ) * π / 16 = n * π / 16 + 2 * π by push_cast; ring, cos_add_two_pi]

theorem cs_neg (n m : ℕ) (h : n + m = 32) : cs n = cs m := by
  unfold cs
  have : (n : ℝ) = 32 - m := by rw [eq_sub_iff_add_eq]; exact_mod_cast h
  rw [this, show (32 - (m : ℝ)) * π / 16 = 2 * π - m * π / 16 by ring, cos_two_pi_sub]

theorem cs_half (n m : ℕ) (h : n + m = 16) : cs n = -cs m := by
  unfold cs
  have : (n : ℝ) = 16 - m := by rw [eq_sub_iff_add_eq]; exact_mod_cast h
  rw [this, show (16 - (m : ℝ)) * π / 16 = π - m * π / 16 by ring, cos_pi_sub]

theorem cs_mod (n : ℕ) : cs n = cs (n % 32) := by
  conv => lhs; rw [← Nat.mod_add_div n 32]
  generalize n / 32 = q
  induction q with
  | zero => rfl
  | succ q ih => rw [Nat.mul_succ, ← Nat.add_assoc, cs_period, ih]

theorem cs0 : cs 0 = 1 := by simp [cs]
theorem cs4 : cs 4 = √2 / 2 := by unfold cs; rw [show ((4 : ℕ) : ℝ) * π / 16 = π / 4 by push_cast; ring, cos_pi_div_four]
theorem cs8 : cs 8 = 0 := by unfold cs; rw [show ((8 : ℕ) : ℝ) * π / 16 = π / 2 by push_cast; ring, cos_pi_div_two]

/-- 2048 √2 cos (n π / 16) -/
noncomputable def wq (n : ℕ) : ℝ := 2048 * √2 * cs n

theorem sqrt2_bounds : 1.41421356 < √2 ∧ √2 < 1.41421357 := by
  constructor
  · rw [lt_sqrt (by norm_num)]; norm_num
  · rw [sqrt_lt' (by norm_num)]; norm_num

theorem wq4 : wq 4 = 2048 := by
  unfold wq; rw [cs4]
  have : √2 * √2 = 2 := mul_self_sqrt (by norm_num)
  linear_combination 1024 * this

theorem cs1_bounds : 0.98078525 < cs 1 ∧ cs 1 < 0.98078529 := by
  have e : cs 1 = √(2 + √(2 + √2)) / 2 := by
    unfold cs; rw [show ((1 : ℕ) : ℝ) * π / 16 = π / 16 by push_cast; ring, cos_pi_div_sixteen]
  obtain ⟨h1, h2⟩ := sqrt2_bounds
  have a1 : 1.84775906 < √(2 + √2) := by rw [lt_sqrt (by norm_num)]; norm_num at h1 ⊢; linarith
  have a2 : √(2 + √2) < 1.84775908 := by rw [sqrt_lt' (by norm_num)]; norm_num at h2 ⊢; linarith
  have b1 : 1.9615705 < √(2 + √(2 + √2)) := by rw [lt_sqrt (by norm_num)]; norm_num at a1 ⊢; linarith
  have b2 : √(2 + √(2 + √2)) < 1.96157058 := by rw [sqrt_lt' (by norm_num)]; norm_num at a2 ⊢; linarith
  rw [e]
  constructor <;> norm_num at b1 b2 ⊢ <;> linarith

/-- cos 2x = 2 cos² x - 1 -/
theorem cs_two (n : ℕ) : cs (2 * n) = 2 * cs n ^ 2 - 1 := by
  unfold cs
  rw [show ((2 * n : ℕ) : ℝ) * π / 16 = 2 * (n * π / 16) by push_cast; ring, cos_two_mul]

/-- cos 3x = 4 cos³ x - 3 cos x -/
theorem cs_three (n : ℕ) : cs (3 * n) = 4 * cs n ^ 3 - 3 * cs n := by
  unfold cs
  rw [show ((3 * n : ℕ) : ℝ) * π / 16 = 3 * (n * π / 16) by push_cast; ring, cos_three_mul]

/-- cos (x + y) + cos (x - y) = 2 cos x cos y -/
theorem cs_sum (n m : ℕ) (h : m ≤ n) : cs (n + m) + cs (n - m) = 2 * cs n * cs m := by
  unfold cs
  rw [Nat.cast_sub h, Nat.cast_add, show (n + m : ℝ) * π / 16 = n * π / 16 + m * π / 16 by ring,
    show (n - m : ℝ) * π / 16 = n * π / 16 - m * π / 16 by ring, cos_add, cos_sub]
  ring

theorem cs2_bounds : 0.9238794 < cs 2 ∧ cs 2 < 0.9238796 := by
  have e := cs_two 1
  obtain ⟨h1, h2⟩ := cs1_bounds
  norm_num at e h1 h2 ⊢
  constructor <;> nlinarith

theorem cs3_bounds : 0.831469 < cs 3 ∧ cs 3 < 0.8314698 := by
  have e := cs_sum 2 1 (by decide)
  obtain ⟨h1, h2⟩ := cs1_bounds
  obtain ⟨g1, g2⟩ := cs2_bounds
  norm_num at e h1 h2 g1 g2 ⊢
  constructor <;> nlinarith

theorem cs6_bounds : 0.382683 < cs 6 ∧ cs 6 < 0.3826836 := by
  have e := cs_sum 4 2 (by decide)
  rw [cs4] at e
  obtain ⟨h1, h2⟩ := sqrt2_bounds
  obtain ⟨g1, g2⟩ := cs2_bounds
  norm_num at e h1 h2 g1 g2 ⊢
  constructor <;> nlinarith

theorem cs5_bounds : 0.555569 < cs 5 ∧ cs 5 < 0.5555715 := by
  have e := cs_sum 4 1 (by decide)
  rw [cs4] at e
  obtain ⟨h1, h2⟩ := sqrt2_bounds
  obtain ⟨g1, g2⟩ := cs1_bounds
  obtain ⟨k1, k2⟩ := cs3_bounds
  norm_num at e h1 h2 g1 g2 k1 k2 ⊢
  constructor <;> nlinarith

theorem cs7_bounds : 0.195088 < cs 7 ∧ cs 7 < 0.1950910 := by
  have e := cs_sum 4 3 (by decide)
  rw [cs4] at e
  obtain ⟨h1, h2⟩ := sqrt2_bounds
  obtain ⟨g1, g2⟩ := cs1_bounds
  obtain ⟨k1, k2⟩ := cs3_bounds
  norm_num at e h1 h2 g1 g2 k1 k2 ⊢
  constructor <;> nlinarith

theorem wq_bounds (n : ℕ) {a b : ℝ} (ha : 0 ≤ a) (h : a < cs n ∧ cs n < b) : 2896.3093 * a ≤ wq n ∧ wq n ≤ 2896.3095 * b := by
  obtain ⟨h1, h2⟩ := sqrt2_bounds
  have k1 : (2896.3093 : ℝ) ≤ 2048 * √2 := by norm_num at h1 ⊢; linarith
  have k2 : 2048 * √2 ≤ (2896.3095 : ℝ) := by norm_num at h2 ⊢; linarith
  unfold wq
  constructor
  · exact mul_le_mul k1 h.1.le ha (by positivity)
  · exact mul_le_mul k2 h.2.le (by linarith [h.1]) (by norm_num)

theorem wq1 : 2840.6 ≤ wq 1 ∧ wq 1 ≤ 2840.66 := by
  obtain ⟨h1, h2⟩ := wq_bounds 1 (by norm_num) cs1_bounds
  constructor <;> norm_num at h1 h2 ⊢ <;> linarith
theorem wq2 : 2675.8 ≤ wq 2 ∧ wq 2 ≤ 2675.9 := by
  obtain ⟨h1, h2⟩ := wq_bounds 2 (by norm_num) cs2_bounds
  constructor <;> norm_num at h1 h2 ⊢ <;> linarith
theorem wq3 : 2408.1 ≤ wq 3 ∧ wq 3 ≤ 2408.3 := by
  obtain ⟨h1, h2⟩ := wq_bounds 3 (by norm_num) cs3_bounds
  constructor <;> norm_num at h1 h2 ⊢ <;> linarith
theorem wq5 : 1609.0 ≤ wq 5 ∧ wq 5 ≤ 1609.2 := by
  obtain ⟨h1, h2⟩ := wq_bounds 5 (by norm_num) cs5_bounds
  constructor <;> norm_num at h1 h2 ⊢ <;> linarith
theorem wq6 : 1108.3 ≤ wq 6 ∧ wq 6 ≤ 1108.4 := by
  obtain ⟨h1, h2⟩ := wq_bounds 6 (by norm_num) cs6_bounds
  constructor <;> norm_num at h1 h2 ⊢ <;> linarith
theorem wq7 : 565.0 ≤ wq 7 ∧ wq 7 ≤ 565.1 := by
  obtain ⟨h1, h2⟩ := wq_bounds 7 (by norm_num) cs7_bounds
  constructor <;> norm_num at h1 h2 ⊢ <;> linarith

/-- The coefficients of the integer transform, times 2048. -/
noncomputable def approx (x u : ℕ) : ℝ :=
  match x, u with
  | _, 0 => 2048
  | 0, 1 => 2841 | 0, 2 => 2676 | 0, 3 => 2408 | 0, 4 => 2048 | 0, 5 => 1609 | 0, 6 => 1108 | 0, 7 => 565
  | 1, 1 => 181 / 256 * 3406 | 1, 2 => 1108 | 1, 3 => -(181 / 256 * 799) | 1, 4 => -2048 | 1, 5 => -(181 / 256 * 4017) | 1, 6 => -2676
  | 1, 7 => -(181 / 256 * 2276)
  | 2, 1 => 181 / 256 * 2276 | 2, 2 => -1108 | 2, 3 => -(181 / 256 * 4017) | 2, 4 => -2048 | 2, 5 => 181 / 256 * 799 | 2, 6 => 2676
  | 2, 7 => 181 / 256 * 3406
  | 3, 1 => 565 | 3, 2 => -2676 | 3, 3 => -1609 | 3, 4 => 2048 | 3, 5 => 2408 | 3, 6 => -1108 | 3, 7 => -2841
  | 4, 1 => -565 | 4, 2 => -2676 | 4, 3 => 1609 | 4, 4 => 2048 | 4, 5 => -2408 | 4, 6 => -1108 | 4, 7 => 2841
  | 5, 1 => -(181 / 256 * 2276) | 5, 2 => -1108 | 5, 3 => 181 / 256 * 4017 | 5, 4 => -2048 | 5, 5 => -(181 / 256 * 799) | 5, 6 => 2676
  | 5, 7 => -(181 / 256 * 3406)
  | 6, 1 => -(181 / 256 * 3406) | 6, 2 => 1108 | 6, 3 => 181 / 256 * 799 | 6, 4 => -2048 | 6, 5 => 181 / 256 * 4017 | 6, 6 => -2676
  | 6, 7 => 181 / 256 * 2276
  | _, 1 => -2841 | _, 2 => 2676 | _, 3 => -2408 | _, 4 => 2048 | _, 5 => -1609 | _, 6 => 1108 | _, _ => -565

/-- The exact coefficients. -/
noncomputable def exact' (x u : ℕ) : ℝ := 2048 * √2 * dctWeight u * dctCos x u

theorem exact_zero (x : ℕ) : exact' x 0 = 2048 := by
  unfold exact' dctWeight
  rw [dctCos_cs, Nat.mul_zero, cs0, if_pos rfl]
  have : √2 ≠ 0 := by positivity
  field_simp

theorem exact_pos (x u : ℕ) (h : u ≠ 0) : exact' x u = wq ((2 * x + 1) * u) := by
  unfold exact' dctWeight wq
  rw [if_neg h, dctCos_cs, mul_one]

theorem wq_mod (n : ℕ) : wq n = wq (n % 32) := by unfold wq; rw [← cs_mod]
theorem wq_neg (n m : ℕ) (h : n + m = 32) : wq n = wq m := by unfold wq; rw [cs_neg n m h]
theorem wq_half (n m : ℕ) (h : n + m = 16) : wq n = -wq m := by unfold wq; rw [cs_half n m h]; ring

set_option maxHeartbeats 2000000 in
theorem coef_close (x u : ℕ) (hx : x < 8) (hu : u < 8) : |approx x u - exact' x u| ≤ 0.55 := by
  have h1 := wq1; have h2 := wq2; have h3 := wq3; have h4 := wq4; have h5 := wq5; have h6 := wq6; have h7 := wq7
  by_cases hu0 : u = 0
  · subst hu0
    have : approx x 0 = 2048 := by unfold approx; rfl
    rw [exact_zero, this]; norm_num
  · rw [exact_pos x u hu0, wq_mod]
    have f17 := wq_neg 17 15 rfl; have f18 := wq_neg 18 14 rfl; have f19 := wq_neg 19 13 rfl; have f20 := wq_neg 20 12 rfl
    have f21 := wq_neg 21 11 rfl; have f22 := wq_neg 22 10 rfl; have f23 := wq_neg 23 9 rfl; have f25 := wq_neg 25 7 rfl
    have f26 := wq_neg 26 6 rfl; have f27 := wq_neg 27 5 rfl; have f28 := wq_neg 28 4 rfl; have f29 := wq_neg 29 3 rfl
    have f30 := wq_neg 30 2 rfl; have f31 := wq_neg 31 1 rfl
    have f9 := wq_half 9 7 rfl; have f10 := wq_half 10 6 rfl; have f11 := wq_half 11 5 rfl; have f12 := wq_half 12 4 rfl
    have f13 := wq_half 13 3 rfl; have f14 := wq_half 14 2 rfl; have f15 := wq_half 15 1 rfl
    norm_num at h1 h2 h3 h5 h6 h7
    rw [abs_le]
    interval_cases x <;> interval_cases u <;> first | (exact absurd rfl hu0) | (simp only [approx, Nat.reduceMul, Nat.reduceAdd, Nat.reduceMod, h4, f17, f18, f19, f20, f21, f22, f23, f25, f26, f27, f28, f29, f30, f31, f9, f10, f11, f12, f13, f14, f15]; clear f17 f18 f19 f20 f21 f22 f23 f25 f26 f27 f28 f29 f30 f31 f9 f10 f11 f12 f13 f14 f15 h4; constructor <;> linarith)

end Verif.Flat
