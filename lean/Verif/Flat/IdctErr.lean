import Verif.Flat.IdctReal
/-
The error of the integer transform.
-/
namespace Verif.Flat
open Real

/-- The linear form of the integer transform at place `k`. -/
noncomputable def lin (A : ℕ → ℝ) (z : ℕ → ℝ) : ℝ := ∑ u ∈ Finset.range 8, A u * z u

theorem lin_eq (A z : ℕ → ℝ) : lin A z = A 0 * z 0 + A 1 * z 1 + A 2 * z 2 + A 3 * z 3 + A 4 * z 4 + A 5 * z 5 + A 6 * z 6 + A 7 * z 7 := by
  simp [lin, Finset.sum_range_succ]

theorem rowZ_even (z : ℕ → ℤ) : 
    (256 * rowZ z 0 ≤ 2048 * z 0 + 2841 * z 1 + 2676 * z 2 + 2408 * z 3 + 2048 * z 4 + 1609 * z 5 + 1108 * z 6 + 565 * z 7 + 128 ∧
      2048 * z 0 + 2841 * z 1 + 2676 * z 2 + 2408 * z 3 + 2048 * z 4 + 1609 * z 5 + 1108 * z 6 + 565 * z 7 + 128 < 256 * rowZ z 0 + 256) ∧
    (256 * rowZ z 7 ≤ 2048 * z 0 - 2841 * z 1 + 2676 * z 2 - 2408 * z 3 + 2048 * z 4 - 1609 * z 5 + 1108 * z 6 - 565 * z 7 + 128 ∧
      2048 * z 0 - 2841 * z 1 + 2676 * z 2 - 2408 * z 3 + 2048 * z 4 - 1609 * z 5 + 1108 * z 6 - 565 * z 7 + 128 < 256 * rowZ z 7 + 256) ∧
    (256 * rowZ z 3 ≤ 2048 * z 0 + 565 * z 1 - 2676 * z 2 - 1609 * z 3 + 2048 * z 4 + 2408 * z 5 - 1108 * z 6 - 2841 * z 7 + 128 ∧
      2048 * z 0 + 565 * z 1 - 2676 * z 2 - 1609 * z 3 + 2048 * z 4 + 2408 * z 5 - 1108 * z 6 - 2841 * z 7 + 128 < 256 * rowZ z 3 + 256) ∧
    (256 * rowZ z 4 ≤ 2048 * z 0 - 565 * z 1 - 2676 * z 2 + 1609 * z 3 + 2048 * z 4 - 2408 * z 5 - 1108 * z 6 + 2841 * z 7 + 128 ∧
      2048 * z 0 - 565 * z 1 - 2676 * z 2 + 1609 * z 3 + 2048 * z 4 - 2408 * z 5 - 1108 * z 6 + 2841 * z 7 + 128 < 256 * rowZ z 4 + 256) := by
  simp only [rowZ]
  omega

theorem rowZ_odd (z : ℕ → ℤ) : ∃ p q : ℤ,
    (256 * p ≤ (3406 * z 1 - 799 * z 3 - 4017 * z 5 - 2276 * z 7) * 181 + 128 ∧ (3406 * z 1 - 799 * z 3 - 4017 * z 5 - 2276 * z 7) * 181 + 128 < 256 * p + 256) ∧
    (256 * q ≤ (2276 * z 1 - 4017 * z 3 + 799 * z 5 + 3406 * z 7) * 181 + 128 ∧ (2276 * z 1 - 4017 * z 3 + 799 * z 5 + 3406 * z 7) * 181 + 128 < 256 * q + 256) ∧
    (256 * rowZ z 1 ≤ 2048 * z 0 + 1108 * z 2 - 2048 * z 4 - 2676 * z 6 + p + 128 ∧
      2048 * z 0 + 1108 * z 2 - 2048 * z 4 - 2676 * z 6 + p + 128 < 256 * rowZ z 1 + 256) ∧
    (256 * rowZ z 6 ≤ 2048 * z 0 + 1108 * z 2 - 2048 * z 4 - 2676 * z 6 - p + 128 ∧
      2048 * z 0 + 1108 * z 2 - 2048 * z 4 - 2676 * z 6 - p + 128 < 256 * rowZ z 6 + 256) ∧
    (256 * rowZ z 2 ≤ 2048 * z 0 - 1108 * z 2 - 2048 * z 4 + 2676 * z 6 + q + 128 ∧
      2048 * z 0 - 1108 * z 2 - 2048 * z 4 + 2676 * z 6 + q + 128 < 256 * rowZ z 2 + 256) ∧
    (256 * rowZ z 5 ≤ 2048 * z 0 - 1108 * z 2 - 2048 * z 4 + 2676 * z 6 - q + 128 ∧
      2048 * z 0 - 1108 * z 2 - 2048 * z 4 + 2676 * z 6 - q + 128 < 256 * rowZ z 5 + 256) := by
  refine ⟨((3406 * z 1 - 799 * z 3 - 4017 * z 5 - 2276 * z 7) * 181 + 128) / 2 ^ 8, ((2276 * z 1 - 4017 * z 3 + 799 * z 5 + 3406 * z 7) * 181 + 128) / 2 ^ 8,
    by omega, by omega, ?_⟩
  simp only [rowZ]
  omega

theorem row_lin (z : ℕ → ℤ) (k : ℕ) (hk : k < 8) : |256 * (rowZ z k : ℝ) - lin (approx k) (fun u => z u)| ≤ 128.5 := by
  obtain ⟨⟨a0, b0⟩, ⟨a7, b7⟩, ⟨a3, b3⟩, a4, b4⟩ := rowZ_even z
  obtain ⟨p, q, ⟨p1, p2⟩, ⟨q1, q2⟩, ⟨a1, b1⟩, ⟨a6, b6⟩, ⟨a2, b2⟩, a5, b5⟩ := rowZ_odd z
  rw [lin_eq, abs_le]
  have cast_le : ∀ {a b : ℤ}, a ≤ b → (a : ℝ) ≤ b := fun h => by exact_mod_cast h
  have cast_lt : ∀ {a b : ℤ}, a < b → (a : ℝ) < b := fun h => by exact_mod_cast h
  replace a0 := cast_le a0; replace a1 := cast_le a1; replace a2 := cast_le a2; replace a3 := cast_le a3
  replace a4 := cast_le a4; replace a5 := cast_le a5; replace a6 := cast_le a6; replace a7 := cast_le a7
  replace b0 := cast_lt b0; replace b1 := cast_lt b1; replace b2 := cast_lt b2; replace b3 := cast_lt b3
  replace b4 := cast_lt b4; replace b5 := cast_lt b5; replace b6 := cast_lt b6; replace b7 := cast_lt b7
  replace p1 := cast_le p1; replace p2 := cast_lt p2; replace q1 := cast_le q1; replace q2 := cast_lt q2
  push_cast at *
  norm_num
  interval_cases k <;> simp only [approx]
  · clear p1 p2 q1 q2 a1 a2 a3 a4 a5 a6 a7 b1 b2 b3 b4 b5 b6 b7; constructor <;> linarith
  · clear q1 q2 a0 a2 a3 a4 a5 a6 a7 b0 b2 b3 b4 b5 b6 b7; constructor <;> linarith
  · clear p1 p2 a0 a1 a3 a4 a5 a6 a7 b0 b1 b3 b4 b5 b6 b7; constructor <;> linarith
  · clear p1 p2 q1 q2 a0 a1 a2 a4 a5 a6 a7 b0 b1 b2 b4 b5 b6 b7; constructor <;> linarith
  · clear p1 p2 q1 q2 a0 a1 a2 a3 a5 a6 a7 b0 b1 b2 b3 b5 b6 b7; constructor <;> linarith
  · clear p1 p2 a0 a1 a2 a3 a4 a6 a7 b0 b1 b2 b3 b4 b6 b7; constructor <;> linarith
  · clear q1 q2 a0 a1 a2 a3 a4 a5 a7 b0 b1 b2 b3 b4 b5 b7; constructor <;> linarith
  · clear p1 p2 q1 q2 a0 a1 a2 a3 a4 a5 a6 b0 b1 b2 b3 b4 b5 b6; constructor <;> linarith

theorem colZ_floor (z : ℕ → ℤ) : ∃ p4 p5 p6 p7 p2 p3 p q : ℤ,
    (8 * p4 ≤ 2841 * z 1 + 565 * z 7 + 4 ∧ 2841 * z 1 + 565 * z 7 + 4 < 8 * p4 + 8) ∧
    (8 * p5 ≤ 565 * z 1 - 2841 * z 7 + 4 ∧ 565 * z 1 - 2841 * z 7 + 4 < 8 * p5 + 8) ∧
    (8 * p6 ≤ 2408 * z 3 + 1609 * z 5 + 4 ∧ 2408 * z 3 + 1609 * z 5 + 4 < 8 * p6 + 8) ∧
    (8 * p7 ≤ 2408 * z 5 - 1609 * z 3 + 4 ∧ 2408 * z 5 - 1609 * z 3 + 4 < 8 * p7 + 8) ∧
    (8 * p2 ≤ 1108 * z 2 - 2676 * z 6 + 4 ∧ 1108 * z 2 - 2676 * z 6 + 4 < 8 * p2 + 8) ∧
    (8 * p3 ≤ 2676 * z 2 + 1108 * z 6 + 4 ∧ 2676 * z 2 + 1108 * z 6 + 4 < 8 * p3 + 8) ∧
    (256 * p ≤ (p4 - p6 + (p5 - p7)) * 181 + 128 ∧ (p4 - p6 + (p5 - p7)) * 181 + 128 < 256 * p + 256) ∧
    (256 * q ≤ (p4 - p6 - (p5 - p7)) * 181 + 128 ∧ (p4 - p6 - (p5 - p7)) * 181 + 128 < 256 * q + 256) ∧
    (16384 * colZ z 0 ≤ 256 * z 0 + 256 * z 4 + p3 + (p4 + p6) + 8192 ∧ 256 * z 0 + 256 * z 4 + p3 + (p4 + p6) + 8192 < 16384 * colZ z 0 + 16384) ∧
    (16384 * colZ z 7 ≤ 256 * z 0 + 256 * z 4 + p3 - (p4 + p6) + 8192 ∧ 256 * z 0 + 256 * z 4 + p3 - (p4 + p6) + 8192 < 16384 * colZ z 7 + 16384) ∧
    (16384 * colZ z 3 ≤ 256 * z 0 + 256 * z 4 - p3 + (p5 + p7) + 8192 ∧ 256 * z 0 + 256 * z 4 - p3 + (p5 + p7) + 8192 < 16384 * colZ z 3 + 16384) ∧
    (16384 * colZ z 4 ≤ 256 * z 0 + 256 * z 4 - p3 - (p5 + p7) + 8192 ∧ 256 * z 0 + 256 * z 4 - p3 - (p5 + p7) + 8192 < 16384 * colZ z 4 + 16384) ∧
    (16384 * colZ z 1 ≤ 256 * z 0 - 256 * z 4 + p2 + p + 8192 ∧ 256 * z 0 - 256 * z 4 + p2 + p + 8192 < 16384 * colZ z 1 + 16384) ∧
    (16384 * colZ z 6 ≤ 256 * z 0 - 256 * z 4 + p2 - p + 8192 ∧ 256 * z 0 - 256 * z 4 + p2 - p + 8192 < 16384 * colZ z 6 + 16384) ∧
    (16384 * colZ z 2 ≤ 256 * z 0 - 256 * z 4 - p2 + q + 8192 ∧ 256 * z 0 - 256 * z 4 - p2 + q + 8192 < 16384 * colZ z 2 + 16384) ∧
    (16384 * colZ z 5 ≤ 256 * z 0 - 256 * z 4 - p2 - q + 8192 ∧ 256 * z 0 - 256 * z 4 - p2 - q + 8192 < 16384 * colZ z 5 + 16384) := by
  simp only [colZ]
  generalize hp4 : (((z 1 + z 7) * 565 + 4 + z 1 * 2276) / 2 ^ 3 : ℤ) = p4
  generalize hp5 : (((z 1 + z 7) * 565 + 4 - z 7 * 3406) / 2 ^ 3 : ℤ) = p5
  generalize hp6 : (((z 5 + z 3) * 2408 + 4 - z 5 * 799) / 2 ^ 3 : ℤ) = p6
  generalize hp7 : (((z 5 + z 3) * 2408 + 4 - z 3 * 4017) / 2 ^ 3 : ℤ) = p7
  generalize hp2 : (((z 2 + z 6) * 1108 + 4 - z 6 * 3784) / 2 ^ 3 : ℤ) = p2
  generalize hp3 : (((z 2 + z 6) * 1108 + 4 + z 2 * 1568) / 2 ^ 3 : ℤ) = p3
  generalize hp : (((p4 - p6) + (p5 - p7)) * 181 + 128) / 2 ^ 8 = p
  generalize hq : (((p4 - p6) - (p5 - p7)) * 181 + 128) / 2 ^ 8 = q
  refine ⟨p4, p5, p6, p7, p2, p3, p, q, ?_⟩
  refine ⟨by omega, by omega, by omega, by omega, by omega, by omega, by omega, by omega, by omega, by omega, by omega, by omega, by omega, by omega, by omega, by omega⟩

theorem col_lin (z : ℕ → ℤ) (k : ℕ) (hk : k < 8) : |16384 * (colZ z k : ℝ) - lin (approx k) (fun u => z u) / 8| ≤ 8196 := by
  obtain ⟨p4, p5, p6, p7, p2, p3, p, q, ⟨lp4, up4⟩, ⟨lp5, up5⟩, ⟨lp6, up6⟩, ⟨lp7, up7⟩, ⟨lp2, up2⟩, ⟨lp3, up3⟩, ⟨lp, up⟩, ⟨lq, uq⟩, ⟨a0, b0⟩, ⟨a7, b7⟩, ⟨a3, b3⟩, ⟨a4, b4⟩, ⟨a1, b1⟩, ⟨a6, b6⟩, ⟨a2, b2⟩, a5, b5⟩ := colZ_floor z
  rw [lin_eq, abs_le]
  have cast_le : ∀ {a b : ℤ}, a ≤ b → (a : ℝ) ≤ b := fun h => by exact_mod_cast h
  have cast_lt : ∀ {a b : ℤ}, a < b → (a : ℝ) < b := fun h => by exact_mod_cast h
  replace lp4 := cast_le lp4; replace up4 := cast_lt up4
  replace lp5 := cast_le lp5; replace up5 := cast_lt up5
  replace lp6 := cast_le lp6; replace up6 := cast_lt up6
  replace lp7 := cast_le lp7; replace up7 := cast_lt up7
  replace lp2 := cast_le lp2; replace up2 := cast_lt up2
  replace lp3 := cast_le lp3; replace up3 := cast_lt up3
  replace lp := cast_le lp; replace up := cast_lt up
  replace lq := cast_le lq; replace uq := cast_lt uq
  replace a0 := cast_le a0; replace b0 := cast_lt b0
  replace a1 := cast_le a1; replace b1 := cast_lt b1
  replace a2 := cast_le a2; replace b2 := cast_lt b2
  replace a3 := cast_le a3; replace b3 := cast_lt b3
  replace a4 := cast_le a4; replace b4 := cast_lt b4
  replace a5 := cast_le a5; replace b5 := cast_lt b5
  replace a6 := cast_le a6; replace b6 := cast_lt b6
  replace a7 := cast_le a7; replace b7 := cast_lt b7
  push_cast at *
  interval_cases k <;> simp only [approx]
  · clear lp5 up5 lp7 up7 lp2 up2 lp up lq uq a1 b1 a2 b2 a3 b3 a4 b4 a5 b5 a6 b6 a7 b7; constructor <;> linarith
  · clear lp3 up3 lq uq a0 b0 a2 b2 a3 b3 a4 b4 a5 b5 a6 b6 a7 b7; constructor <;> linarith
  · clear lp3 up3 lp up a0 b0 a1 b1 a3 b3 a4 b4 a5 b5 a6 b6 a7 b7; constructor <;> linarith
  · clear lp4 up4 lp6 up6 lp2 up2 lp up lq uq a0 b0 a1 b1 a2 b2 a4 b4 a5 b5 a6 b6 a7 b7; constructor <;> linarith
  · clear lp4 up4 lp6 up6 lp2 up2 lp up lq uq a0 b0 a1 b1 a2 b2 a3 b3 a5 b5 a6 b6 a7 b7; constructor <;> linarith
  · clear lp3 up3 lp up a0 b0 a1 b1 a2 b2 a3 b3 a4 b4 a6 b6 a7 b7; constructor <;> linarith
  · clear lp3 up3 lq uq a0 b0 a1 b1 a2 b2 a3 b3 a4 b4 a5 b5 a7 b7; constructor <;> linarith
  · clear lp5 up5 lp7 up7 lp2 up2 lp up lq uq a0 b0 a1 b1 a2 b2 a3 b3 a4 b4 a5 b5 a6 b6; constructor <;> linarith

end Verif.Flat
