import Verif.Flat.IdctSpec
import Mathlib.Tactic.Linarith
/-
The reference transform in 32-bit arithmetic does not overflow for inputs of a bounded size: it is the same computation on integers.
-/
namespace Verif.Flat

/-- `x` is the number `z`, of magnitude at most `B`. -/
structure Rep (x : BitVec 32) (z : Int) (B : Int) : Prop where
  eq : x.toInt = z
  lo : -B ≤ z
  hi : z ≤ B

section
variable {x y : BitVec 32} {a b A B : Int}

theorem bmod32 {z : Int} (h1 : -(2 ^ 31 : Int) ≤ z) (h2 : z < 2 ^ 31) : z.bmod (2 ^ 32) = z :=
  Int.bmod_eq_of_le (by norm_num; omega) (by norm_num; omega)

theorem Rep.add (h : Rep x a A) (h' : Rep y b B) (hb : A + B < 2 ^ 31) : Rep (x + y) (a + b) (A + B) := by
  have := h.lo; have := h.hi; have := h'.lo; have := h'.hi
  refine ⟨?_, by omega, by omega⟩
  rw [BitVec.toInt_add, h.eq, h'.eq]
  exact bmod32 (by omega) (by omega)

theorem Rep.sub (h : Rep x a A) (h' : Rep y b B) (hb : A + B < 2 ^ 31) : Rep (x - y) (a - b) (A + B) := by
  have := h.lo; have := h.hi; have := h'.lo; have := h'.hi
  refine ⟨?_, by omega, by omega⟩
  rw [BitVec.toInt_sub, h.eq, h'.eq]
  exact bmod32 (by omega) (by omega)

theorem Rep.const (x : BitVec 32) (b : Int) (hx : x.toInt = b := by decide) (h : 0 ≤ b := by decide) : Rep x b b := ⟨hx, by omega, by omega⟩

/-- Multiplication by a constant. -/
theorem Rep.mul (h : Rep x a A) (y : BitVec 32) {b : Int} (hy : y.toInt = b) (h0 : 0 ≤ b) (hb : A * b < 2 ^ 31) : Rep (x * y) (a * b) (A * b) := by
  have l : -(A * b) ≤ a * b := by have := mul_le_mul_of_nonneg_right h.lo h0; linarith
  have u := mul_le_mul_of_nonneg_right h.hi h0
  refine ⟨?_, l, u⟩
  rw [BitVec.toInt_mul, h.eq, hy]
  exact bmod32 (by omega) (by omega)

theorem Rep.shl (h : Rep x a A) (k : Nat) (hk : (BitVec.twoPow 32 k).toInt = 2 ^ k) (hb : A * 2 ^ k < 2 ^ 31) :
    Rep (x <<< k) (a * 2 ^ k) (A * 2 ^ k) := by
  rw [BitVec.shiftLeft_eq_mul_twoPow]
  exact h.mul _ hk (by positivity) hb

theorem Rep.shr (h : Rep x a A) (k : Nat) : Rep (x.sshiftRight k) (a / 2 ^ k) (A / 2 ^ k + 1) := by
  have := h.lo; have := h.hi
  have hp : (0 : Int) < 2 ^ k := by positivity
  refine ⟨?_, ?_, ?_⟩
  · rw [BitVec.toInt_sshiftRight, h.eq, Int.shiftRight_eq_div_pow]; norm_cast
  · rw [Int.le_ediv_iff_mul_le hp]
    have := Int.lt_ediv_add_one_mul_self A hp
    linarith
  · have := Int.ediv_le_ediv hp h.hi
    omega

end

/-- The row transform on integers. -/
def rowZ (x : Nat → Int) (k : Nat) : Int :=
  let x0 := x 0 * 2 ^ 11 + 128
  let x1 := x 4 * 2 ^ 11
  let x2 := x 6
  let x3 := x 2
  let x4 := x 1
  let x5 := x 7
  let x6 := x 5
  let x7 := x 3
  let x8 := (x4 + x5) * 565
  let x4 := x8 + x4 * 2276
  let x5 := x8 - x5 * 3406
  let x8 := (x6 + x7) * 2408
  let x6 := x8 - x6 * 799
  let x7 := x8 - x7 * 4017
  let x8 := x0 + x1
  let x0 := x0 - x1
  let x1 := (x3 + x2) * 1108
  let x2 := x1 - x2 * 3784
  let x3 := x1 + x3 * 1568
  let x1 := x4 + x6
  let x4 := x4 - x6
  let x6 := x5 + x7
  let x5 := x5 - x7
  let x7 := x8 + x3
  let x8 := x8 - x3
  let x3 := x0 + x2
  let x0 := x0 - x2
  let x2 := ((x4 + x5) * 181 + 128) / 2 ^ 8
  let x4 := ((x4 - x5) * 181 + 128) / 2 ^ 8
  match k with
  | 0 => (x7 + x1) / 2 ^ 8
  | 1 => (x3 + x2) / 2 ^ 8
  | 2 => (x0 + x4) / 2 ^ 8
  | 3 => (x8 + x6) / 2 ^ 8
  | 4 => (x8 - x6) / 2 ^ 8
  | 5 => (x0 - x4) / 2 ^ 8
  | 6 => (x3 - x2) / 2 ^ 8
  | _ => (x7 - x1) / 2 ^ 8

/-- The column transform on integers, without clipping. -/
def colZ (x : Nat → Int) (k : Nat) : Int :=
  let x0 := x 0 * 2 ^ 8 + 8192
  let x1 := x 4 * 2 ^ 8
  let x2 := x 6
  let x3 := x 2
  let x4 := x 1
  let x5 := x 7
  let x6 := x 5
  let x7 := x 3
  let x8 := (x4 + x5) * 565 + 4
  let x4 := (x8 + x4 * 2276) / 2 ^ 3
  let x5 := (x8 - x5 * 3406) / 2 ^ 3
  let x8 := (x6 + x7) * 2408 + 4
  let x6 := (x8 - x6 * 799) / 2 ^ 3
  let x7 := (x8 - x7 * 4017) / 2 ^ 3
  let x8 := x0 + x1
  let x0 := x0 - x1
  let x1 := (x3 + x2) * 1108 + 4
  let x2 := (x1 - x2 * 3784) / 2 ^ 3
  let x3 := (x1 + x3 * 1568) / 2 ^ 3
  let x1 := x4 + x6
  let x4 := x4 - x6
  let x6 := x5 + x7
  let x5 := x5 - x7
  let x7 := x8 + x3
  let x8 := x8 - x3
  let x3 := x0 + x2
  let x0 := x0 - x2
  let x2 := ((x4 + x5) * 181 + 128) / 2 ^ 8
  let x4 := ((x4 - x5) * 181 + 128) / 2 ^ 8
  match k with
  | 0 => (x7 + x1) / 2 ^ 14
  | 1 => (x3 + x2) / 2 ^ 14
  | 2 => (x0 + x4) / 2 ^ 14
  | 3 => (x8 + x6) / 2 ^ 14
  | 4 => (x8 - x6) / 2 ^ 14
  | 5 => (x0 - x4) / 2 ^ 14
  | 6 => (x3 - x2) / 2 ^ 14
  | _ => (x7 - x1) / 2 ^ 14

/-- `x` is the number `z`. -/
def Is (x : BitVec 32) (z : Int) : Prop := x.toInt = z

instance (x : BitVec 32) (z : Int) : Decidable (Is x z) := inferInstanceAs (Decidable (x.toInt = z))

section
variable {x y : BitVec 32} {a b : Int}

theorem Is.rep {A : Int} (h : Is x a) (h1 : -A ≤ a) (h2 : a ≤ A) : Rep x a A := ⟨h, h1, h2⟩

theorem Is.add' (h : Is x a) (h' : Is y b) (h1 : -2147483648 ≤ a + b) (h2 : a + b < 2147483648) : Is (x + y) (a + b) := by
  unfold Is at *
  rw [BitVec.toInt_add, h, h']
  exact bmod32 (by omega) (by omega)

theorem Is.sub' (h : Is x a) (h' : Is y b) (h1 : -2147483648 ≤ a - b) (h2 : a - b < 2147483648) : Is (x - y) (a - b) := by
  unfold Is at *
  rw [BitVec.toInt_sub, h, h']
  exact bmod32 (by omega) (by omega)

theorem Is.mul' (h : Is x a) (y : BitVec 32) {b : Int} (hy : y.toInt = b) (h1 : -2147483648 ≤ a * b) (h2 : a * b < 2147483648) : Is (x * y) (a * b) := by
  unfold Is at *
  rw [BitVec.toInt_mul, h, hy]
  exact bmod32 (by omega) (by omega)

theorem Is.shl' (h : Is x a) (k : Nat) (hk : (BitVec.twoPow 32 k).toInt = 2 ^ k) (h1 : -2147483648 ≤ a * 2 ^ k) (h2 : a * 2 ^ k < 2147483648) :
    Is (x <<< k) (a * 2 ^ k) := by
  rw [BitVec.shiftLeft_eq_mul_twoPow]
  exact h.mul' _ hk h1 h2

theorem Is.shr' (h : Is x a) (k : Nat) : Is (x.sshiftRight k) (a / 2 ^ k) := by
  unfold Is at *
  rw [BitVec.toInt_sshiftRight, h, Int.shiftRight_eq_div_pow]; norm_cast

end

set_option maxHeartbeats 2000000 in
/-- Rows whose coefficients have magnitudes that add up to at most 2950. -/
theorem idctRow_int {x : Nat → BitVec 32} {z : Nat → Int} (h : ∀ u < 8, Is (x u) (z u)) 
    (hs : |z 0| + |z 1| + |z 2| + |z 3| + |z 4| + |z 5| + |z 6| + |z 7| ≤ 2950) (k : Nat) : (idctRow x k).toInt = rowZ z k := by
  obtain ⟨l0, u0⟩ := abs_le.mp (le_refl |z 0|)
  obtain ⟨l1, u1⟩ := abs_le.mp (le_refl |z 1|)
  obtain ⟨l2, u2⟩ := abs_le.mp (le_refl |z 2|)
  obtain ⟨l3, u3⟩ := abs_le.mp (le_refl |z 3|)
  obtain ⟨l4, u4⟩ := abs_le.mp (le_refl |z 4|)
  obtain ⟨l5, u5⟩ := abs_le.mp (le_refl |z 5|)
  obtain ⟨l6, u6⟩ := abs_le.mp (le_refl |z 6|)
  obtain ⟨l7, u7⟩ := abs_le.mp (le_refl |z 7|)
  generalize |z 0| = n0 at *
  generalize |z 1| = n1 at *
  generalize |z 2| = n2 at *
  generalize |z 3| = n3 at *
  generalize |z 4| = n4 at *
  generalize |z 5| = n5 at *
  generalize |z 6| = n6 at *
  generalize |z 7| = n7 at *
  have h0 := ((h 0 (by decide)).shl' 11 (by decide) (by omega) (by omega)).add' (show Is 128 128 by decide) (by omega) (by omega)
  have h1 := (h 4 (by decide)).shl' 11 (by decide) (by omega) (by omega)
  have h2 := h 6 (by decide)
  have h3 := h 2 (by decide)
  have h4 := h 1 (by decide)
  have h5 := h 7 (by decide)
  have h6 := h 5 (by decide)
  have h7 := h 3 (by decide)
  have h8 := ((h4.add' h5 (by omega) (by omega)).mul' 565 (b := 565) (by decide) (by omega) (by omega))
  have g4 := (h8.add' (h4.mul' (2841 - 565) (b := 2276) (by decide) (by omega) (by omega)) (by omega) (by omega))
  have g5 := (h8.sub' (h5.mul' (2841 + 565) (b := 3406) (by decide) (by omega) (by omega)) (by omega) (by omega))
  have h8 := ((h6.add' h7 (by omega) (by omega)).mul' 2408 (b := 2408) (by decide) (by omega) (by omega))
  have g6 := (h8.sub' (h6.mul' (2408 - 1609) (b := 799) (by decide) (by omega) (by omega)) (by omega) (by omega))
  have g7 := (h8.sub' (h7.mul' (2408 + 1609) (b := 4017) (by decide) (by omega) (by omega)) (by omega) (by omega))
  have h8 := (h0.add' h1 (by omega) (by omega))
  have g0 := (h0.sub' h1 (by omega) (by omega))
  have g1 := ((h3.add' h2 (by omega) (by omega)).mul' 1108 (b := 1108) (by decide) (by omega) (by omega))
  have g2 := (g1.sub' (h2.mul' (2676 + 1108) (b := 3784) (by decide) (by omega) (by omega)) (by omega) (by omega))
  have g3 := (g1.add' (h3.mul' (2676 - 1108) (b := 1568) (by decide) (by omega) (by omega)) (by omega) (by omega))
  have k1 := (g4.add' g6 (by omega) (by omega))
  have k4 := (g4.sub' g6 (by omega) (by omega))
  have k6 := (g5.add' g7 (by omega) (by omega))
  have k5 := (g5.sub' g7 (by omega) (by omega))
  have k7 := (h8.add' g3 (by omega) (by omega))
  have k8 := (h8.sub' g3 (by omega) (by omega))
  have k3 := (g0.add' g2 (by omega) (by omega))
  have k0 := (g0.sub' g2 (by omega) (by omega))
  have k2 := ((((k4.add' k5 (by omega) (by omega)).mul' 181 (b := 181) (by decide) (by omega) (by omega)).add' (show Is 128 128 by decide) (by omega) (by omega)).rep
    (A := 2147483647) (by omega) (by omega)).shr 8
  have m4 := ((((k4.sub' k5 (by omega) (by omega)).mul' 181 (b := 181) (by decide) (by omega) (by omega)).add' (show Is 128 128 by decide) (by omega) (by omega)).rep
    (A := 2147483647) (by omega) (by omega)).shr 8
  have r7 := k7.rep (A := 100000000) (by omega) (by omega)
  have r8 := k8.rep (A := 100000000) (by omega) (by omega)
  have r3 := k3.rep (A := 100000000) (by omega) (by omega)
  have r0 := k0.rep (A := 100000000) (by omega) (by omega)
  have r1 := k1.rep (A := 100000000) (by omega) (by omega)
  have r6 := k6.rep (A := 100000000) (by omega) (by omega)
  rcases k with _ | _ | _ | _ | _ | _ | _ | k
  · exact ((r7.add r1 (by decide)).shr 8).eq
  · exact ((r3.add k2 (by decide)).shr 8).eq
  · exact ((r0.add m4 (by decide)).shr 8).eq
  · exact ((r8.add r6 (by decide)).shr 8).eq
  · exact ((r8.sub r6 (by decide)).shr 8).eq
  · exact ((r0.sub m4 (by decide)).shr 8).eq
  · exact ((r3.sub k2 (by decide)).shr 8).eq
  · exact ((r7.sub r1 (by decide)).shr 8).eq

theorem idctCol_int {x : Nat → BitVec 32} {z : Nat → Int} (h : ∀ u < 8, Rep (x u) (z u) 4096) (k : Nat) : (idctCol x k).toInt = colZ z k := by
  have c4 := Rep.const (4 : BitVec 32) 4
  have c128 := Rep.const (128 : BitVec 32) 128
  have c8192 := Rep.const (8192 : BitVec 32) 8192
  have h0 := (((h 0 (by decide)).shl 8 (by decide) (by decide)).add c8192 (by decide))
  have h1 := ((h 4 (by decide)).shl 8 (by decide) (by decide))
  have h2 := h 6 (by decide)
  have h3 := h 2 (by decide)
  have h4 := h 1 (by decide)
  have h5 := h 7 (by decide)
  have h6 := h 5 (by decide)
  have h7 := h 3 (by decide)
  have h8 := (((h4.add h5 (by decide)).mul 565 (b := 565) (by decide) (by decide) (by decide)).add c4 (by decide))
  have g4 := ((h8.add (h4.mul (2841 - 565) (b := 2276) (by decide) (by decide) (by decide)) (by decide)).shr 3)
  have g5 := ((h8.sub (h5.mul (2841 + 565) (b := 3406) (by decide) (by decide) (by decide)) (by decide)).shr 3)
  have h8 := (((h6.add h7 (by decide)).mul 2408 (b := 2408) (by decide) (by decide) (by decide)).add c4 (by decide))
  have g6 := ((h8.sub (h6.mul (2408 - 1609) (b := 799) (by decide) (by decide) (by decide)) (by decide)).shr 3)
  have g7 := ((h8.sub (h7.mul (2408 + 1609) (b := 4017) (by decide) (by decide) (by decide)) (by decide)).shr 3)
  have h8 := (h0.add h1 (by decide))
  have g0 := (h0.sub h1 (by decide))
  have g1 := (((h3.add h2 (by decide)).mul 1108 (b := 1108) (by decide) (by decide) (by decide)).add c4 (by decide))
  have g2 := ((g1.sub (h2.mul (2676 + 1108) (b := 3784) (by decide) (by decide) (by decide)) (by decide)).shr 3)
  have g3 := ((g1.add (h3.mul (2676 - 1108) (b := 1568) (by decide) (by decide) (by decide)) (by decide)).shr 3)
  have k1 := (g4.add g6 (by decide))
  have k4 := (g4.sub g6 (by decide))
  have k6 := (g5.add g7 (by decide))
  have k5 := (g5.sub g7 (by decide))
  have k7 := (h8.add g3 (by decide))
  have k8 := (h8.sub g3 (by decide))
  have k3 := (g0.add g2 (by decide))
  have k0 := (g0.sub g2 (by decide))
  have k2 := ((((k4.add k5 (by decide)).mul 181 (b := 181) (by decide) (by decide) (by decide)).add c128 (by decide)).shr 8)
  have m4 := ((((k4.sub k5 (by decide)).mul 181 (b := 181) (by decide) (by decide) (by decide)).add c128 (by decide)).shr 8)
  rcases k with _ | _ | _ | _ | _ | _ | _ | k
  · exact ((k7.add k1 (by decide)).shr 14).eq
  · exact ((k3.add k2 (by decide)).shr 14).eq
  · exact ((k0.add m4 (by decide)).shr 14).eq
  · exact ((k8.add k6 (by decide)).shr 14).eq
  · exact ((k8.sub k6 (by decide)).shr 14).eq
  · exact ((k0.sub m4 (by decide)).shr 14).eq
  · exact ((k3.sub k2 (by decide)).shr 14).eq
  · exact ((k7.sub k1 (by decide)).shr 14).eq

end Verif.Flat
