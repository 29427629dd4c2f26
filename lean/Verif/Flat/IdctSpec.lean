/-
The inverse DCT of the MPEG reference decoder (Chen-Wang algorithm, `idctrow` and `idctcol` of idct.c), in 32-bit arithmetic.
-/
namespace Verif.Flat

/-- `idctrow`: from eight coefficients eight values, scaled by 8 (the eleven bits of scale of the constants less eight). -/
def idctRow (x : Nat → BitVec 32) (k : Nat) : BitVec 32 :=
  let x0 := (x 0 <<< 11) + 128
  let x1 := x 4 <<< 11
  let x2 := x 6
  let x3 := x 2
  let x4 := x 1
  let x5 := x 7
  let x6 := x 5
  let x7 := x 3
  -- first stage
  let x8 := (x4 + x5) * 565
  let x4 := x8 + x4 * (2841 - 565)
  let x5 := x8 - x5 * (2841 + 565)
  let x8 := (x6 + x7) * 2408
  let x6 := x8 - x6 * (2408 - 1609)
  let x7 := x8 - x7 * (2408 + 1609)
  -- second stage
  let x8 := x0 + x1
  let x0 := x0 - x1
  let x1 := (x3 + x2) * 1108
  let x2 := x1 - x2 * (2676 + 1108)
  let x3 := x1 + x3 * (2676 - 1108)
  let x1 := x4 + x6
  let x4 := x4 - x6
  let x6 := x5 + x7
  let x5 := x5 - x7
  -- third stage
  let x7 := x8 + x3
  let x8 := x8 - x3
  let x3 := x0 + x2
  let x0 := x0 - x2
  let x2 := ((x4 + x5) * 181 + 128).sshiftRight 8
  let x4 := ((x4 - x5) * 181 + 128).sshiftRight 8
  -- fourth stage
  match k with
  | 0 => (x7 + x1).sshiftRight 8
  | 1 => (x3 + x2).sshiftRight 8
  | 2 => (x0 + x4).sshiftRight 8
  | 3 => (x8 + x6).sshiftRight 8
  | 4 => (x8 - x6).sshiftRight 8
  | 5 => (x0 - x4).sshiftRight 8
  | 6 => (x3 - x2).sshiftRight 8
  | _ => (x7 - x1).sshiftRight 8

/-- `idctcol`, without the clipping of the results: from eight values of a column of the result of `idctRow` eight samples. -/
def idctCol (x : Nat → BitVec 32) (k : Nat) : BitVec 32 :=
  let x0 := (x 0 <<< 8) + 8192
  let x1 := x 4 <<< 8
  let x2 := x 6
  let x3 := x 2
  let x4 := x 1
  let x5 := x 7
  let x6 := x 5
  let x7 := x 3
  -- first stage
  let x8 := (x4 + x5) * 565 + 4
  let x4 := (x8 + x4 * (2841 - 565)).sshiftRight 3
  let x5 := (x8 - x5 * (2841 + 565)).sshiftRight 3
  let x8 := (x6 + x7) * 2408 + 4
  let x6 := (x8 - x6 * (2408 - 1609)).sshiftRight 3
  let x7 := (x8 - x7 * (2408 + 1609)).sshiftRight 3
  -- second stage
  let x8 := x0 + x1
  let x0 := x0 - x1
  let x1 := (x3 + x2) * 1108 + 4
  let x2 := (x1 - x2 * (2676 + 1108)).sshiftRight 3
  let x3 := (x1 + x3 * (2676 - 1108)).sshiftRight 3
  let x1 := x4 + x6
  let x4 := x4 - x6
  let x6 := x5 + x7
  let x5 := x5 - x7
  -- third stage
  let x7 := x8 + x3
  let x8 := x8 - x3
  let x3 := x0 + x2
  let x0 := x0 - x2
  let x2 := ((x4 + x5) * 181 + 128).sshiftRight 8
  let x4 := ((x4 - x5) * 181 + 128).sshiftRight 8
  -- fourth stage
  match k with
  | 0 => (x7 + x1).sshiftRight 14
  | 1 => (x3 + x2).sshiftRight 14
  | 2 => (x0 + x4).sshiftRight 14
  | 3 => (x8 + x6).sshiftRight 14
  | 4 => (x8 - x6).sshiftRight 14
  | 5 => (x0 - x4).sshiftRight 14
  | 6 => (x3 - x2).sshiftRight 14
  | _ => (x7 - x1).sshiftRight 14

/-- Clipping to the range of nine-bit samples. -/
def clip9 (z : Int) : Int := if z < -256 then -256 else if 255 < z then 255 else z

/-- The two-dimensional transform with intermediate values of `m` bits: sample `k` (row `k / 8`, column `k % 8`) for the coefficients `c`. -/
def idct2D (m : Nat) (c : Nat → BitVec 32) (k : Nat) : BitVec 9 :=
  let rows (i j : Nat) : BitVec m := (idctRow (fun u => c (8 * i + u)) j).signExtend m
  let cols (i j : Nat) : BitVec m := (idctCol (fun u => (rows u j).signExtend 32) i).signExtend m
  BitVec.ofInt 9 (clip9 (cols (k / 8) (k % 8)).toInt)

/-- Elements of nine bits side by side, the first one in the lowest bits. -/
def packed (f : Nat → BitVec 9) : (n : Nat) → BitVec (9 * n)
  | 0 => 0#0
  | n + 1 => (f n ++ packed f n).cast (by omega)

/-- An element can be read off. -/
theorem packed_get (f : Nat → BitVec 9) : ∀ (n i : Nat), i < n → (packed f n).extractLsb' (9 * i) 9 = f i
  | 0, i, h => by omega
  | n + 1, i, h => by
    refine BitVec.eq_of_getLsbD_eq fun j hj => ?_
    simp only [BitVec.getLsbD_extractLsb', packed, BitVec.getLsbD_cast, BitVec.getLsbD_append, hj, decide_true, Bool.true_and]
    by_cases hi : i = n
    · subst hi
      rw [if_neg (by omega)]
      congr 1; omega
    · rw [if_pos (by omega)]
      have := congrArg (fun v => v.getLsbD j) (packed_get f n i (by omega))
      simp only [BitVec.getLsbD_extractLsb', hj, decide_true, Bool.true_and] at this
      exact this

end Verif.Flat
