import Verif.Ieee.Spec
import Mathlib.Data.Int.Log
import Mathlib.Data.Rat.Floor
import Mathlib.Tactic.Linarith
import Mathlib.Tactic.Ring
import Mathlib.Tactic.FieldSimp
import Mathlib.Tactic.Positivity
/-
Rounding to nearest, ties to even, computed.
-/
namespace Verif.Ieee

/-- To the nearest integer, ties to even. -/
def rne (t : ℚ) : Nat :=
  let n := ⌊t⌋₊
  if t - n < 1 / 2 then n else if 1 / 2 < t - n then n + 1 else if n % 2 = 0 then n else n + 1

variable (f : Fmt)

/-- Exponent and significand fields of infinity, as one number. -/
def Fmt.top : Nat := (2 ^ f.w - 1) * 2 ^ f.p

/-- The number with these exponent and significand fields, as if there were infinitely many exponents. -/
def Fmt.mag (k : Nat) : ℚ :=
  if k / 2 ^ f.p = 0 then (k : ℚ) * 2 ^ f.emin else ((2 ^ f.p + k % 2 ^ f.p : Nat) : ℚ) * 2 ^ (f.emin + (k / 2 ^ f.p - 1 : Nat))

/-- Exponent of the last place of a number of this size. -/
def Fmt.ulp (q : ℚ) : Int := max f.emin (Int.log 2 q - f.p)

/-- Exponent and significand fields of the number nearest to `q ≥ 0`. -/
def Fmt.round (q : ℚ) : Nat :=
  if q = 0 then 0 else min ((f.ulp q - f.emin).toNat * 2 ^ f.p + rne (q / 2 ^ f.ulp q)) f.top

/-! ### Proofs -/

theorem two_zpow_pos (e : Int) : (0 : ℚ) < 2 ^ e := zpow_pos (by norm_num) e

theorem Fmt.mag_at (e m : Nat) (h : 2 ^ f.p ≤ m ∨ e = 0) (hm : m ≤ 2 * 2 ^ f.p) :
    f.mag (e * 2 ^ f.p + m) = (m : ℚ) * 2 ^ (f.emin + e) := by
  have hP : 0 < 2 ^ f.p := Nat.two_pow_pos _
  unfold Fmt.mag
  generalize hPe : 2 ^ f.p = P at *
  rcases Nat.lt_or_ge m P with h1 | h1
  · obtain rfl : e = 0 := by omega
    have : (0 * P + m) / P = 0 := by rw [Nat.zero_mul, Nat.zero_add]; exact Nat.div_eq_of_lt h1
    rw [if_pos this]; simp
  · rcases Nat.lt_or_ge m (2 * P) with h2 | h2
    · obtain ⟨r, rfl⟩ : ∃ r, m = P + r := ⟨m - P, by omega⟩
      have e1 : e * P + (P + r) = r + (e + 1) * P := by ring
      have d1 : (e * P + (P + r)) / P = e + 1 := by
        rw [e1, Nat.add_mul_div_right _ _ hP, Nat.div_eq_of_lt (by omega), Nat.zero_add]
      have d2 : (e * P + (P + r)) % P = r := by
        rw [e1, Nat.add_mul_mod_self_right, Nat.mod_eq_of_lt (by omega)]
      rw [d1, d2, if_neg (by omega)]
      simp
    · obtain rfl : m = 2 * P := by omega
      have e1 : e * P + 2 * P = (e + 2) * P := by ring
      rw [e1, Nat.mul_div_cancel _ hP, Nat.mul_mod_left, if_neg (by omega)]
      rw [show f.emin + ((e + 2 - 1 : Nat) : Int) = f.emin + (e : Int) + 1 by push_cast; omega, zpow_add₀ (by norm_num)]
      push_cast
      ring

/-- Every number of fields is of the form above. -/
theorem fields_of (P k : Nat) (hP : 0 < P) : ∃ e m, k = e * P + m ∧ (P ≤ m ∨ e = 0) ∧ m < 2 * P := by
  rcases Nat.lt_or_ge k P with h | h
  · exact ⟨0, k, by omega, .inr rfl, by omega⟩
  · refine ⟨k / P - 1, k % P + P, ?_, .inl (by omega), by have := Nat.mod_lt k hP; omega⟩
    have h1 : 1 ≤ k / P := (Nat.one_le_div_iff hP).2 h
    obtain ⟨d, hd⟩ : ∃ d, k / P = d + 1 := ⟨k / P - 1, by omega⟩
    have := Nat.div_add_mod k P
    rw [hd] at this ⊢
    rw [Nat.add_sub_cancel]
    have e : P * (d + 1) = d * P + P := by ring
    omega

theorem Fmt.mag_succ (k : Nat) : f.mag k < f.mag (k + 1) := by
  obtain ⟨e, m, rfl, h, hm⟩ := fields_of (2 ^ f.p) k (Nat.two_pow_pos _)
  rw [Nat.add_assoc, f.mag_at e m h (by omega), f.mag_at e (m + 1) (by omega) (by omega)]
  have := two_zpow_pos (f.emin + e)
  push_cast
  nlinarith

theorem Fmt.mag_mono : StrictMono f.mag := strictMono_nat_of_lt_succ f.mag_succ

theorem Fmt.mag_zero : f.mag 0 = 0 := by simp [Fmt.mag]

theorem Fmt.mag_nonneg (k : Nat) : 0 ≤ f.mag k := by
  rw [← f.mag_zero]; exact f.mag_mono.monotone (Nat.zero_le k)

/-- Where `q` lies. -/
structure Fmt.Between (q : ℚ) (e n : Nat) : Prop where
  place : f.ulp q = f.emin + e
  normal : 2 ^ f.p ≤ n ∨ e = 0
  below : n < 2 * 2 ^ f.p
  floor : n = ⌊q / 2 ^ f.ulp q⌋₊
  lo : f.mag (e * 2 ^ f.p + n) ≤ q
  hi : q < f.mag (e * 2 ^ f.p + n + 1)
  frac : q - f.mag (e * 2 ^ f.p + n) = (q / 2 ^ f.ulp q - n) * 2 ^ f.ulp q
  frac' : f.mag (e * 2 ^ f.p + n + 1) - q = (1 - (q / 2 ^ f.ulp q - n)) * 2 ^ f.ulp q

theorem Fmt.between {q : ℚ} (hq : 0 < q) : ∃ e n, f.Between q e n := by
  obtain ⟨e, he⟩ : ∃ e : Nat, f.ulp q = f.emin + e := ⟨(f.ulp q - f.emin).toNat, by unfold Fmt.ulp; omega⟩
  have hu := two_zpow_pos (f.ulp q)
  have hlo : (2 : ℚ) ^ Int.log 2 q ≤ q := by simpa using Int.zpow_log_le_self (R := ℚ) (b := 2) (by norm_num) hq
  have hhi : q < (2 : ℚ) ^ (Int.log 2 q + 1) := by simpa using Int.lt_zpow_succ_log_self (R := ℚ) (b := 2) (by norm_num) q
  set t := q / 2 ^ f.ulp q with ht
  have htq : t * 2 ^ f.ulp q = q := div_mul_cancel₀ _ hu.ne'
  have ht0 : 0 ≤ t := (div_pos hq hu).le
  have hn1 := Nat.floor_le ht0
  have hn2 := Nat.lt_floor_add_one t
  have htt : t < ((2 * 2 ^ f.p : Nat) : ℚ) := by
    rw [ht, div_lt_iff₀ hu]
    refine lt_of_lt_of_le hhi ?_
    have : ((2 * 2 ^ f.p : Nat) : ℚ) * 2 ^ f.ulp q = 2 ^ (f.ulp q + f.p + 1) := by
      rw [zpow_add₀ (by norm_num), zpow_add₀ (by norm_num)]
      push_cast
      rw [zpow_natCast]
      ring
    rw [this]
    refine zpow_le_zpow_right₀ (by norm_num) ?_
    unfold Fmt.ulp; omega
  have hb : ⌊t⌋₊ < 2 * 2 ^ f.p := (Nat.floor_lt ht0).2 htt
  have hnorm : 2 ^ f.p ≤ ⌊t⌋₊ ∨ e = 0 := by
    by_cases h : f.emin < Int.log 2 q - f.p
    · left
      refine Nat.le_floor ?_
      rw [ht, le_div_iff₀ hu]
      refine le_trans ?_ hlo
      have : (((2 ^ f.p : Nat) : ℚ)) * 2 ^ f.ulp q = 2 ^ (f.p + f.ulp q) := by
        rw [zpow_add₀ (by norm_num)]
        push_cast
        rw [zpow_natCast]
      rw [this]
      refine zpow_le_zpow_right₀ (by norm_num) ?_
      unfold Fmt.ulp; omega
    · right
      have : f.ulp q = f.emin := by unfold Fmt.ulp; omega
      omega
  have m1 := f.mag_at e ⌊t⌋₊ hnorm (by omega)
  have m2 := f.mag_at e (⌊t⌋₊ + 1) (by omega) (by omega)
  rw [← Nat.add_assoc] at m2
  rw [← he] at m1 m2
  refine ⟨e, ⌊t⌋₊, he, hnorm, hb, rfl, ?_, ?_, ?_, ?_⟩
  · rw [m1]; exact (mul_le_mul_of_nonneg_right hn1 hu.le).trans_eq htq
  · rw [m2]; push_cast; exact htq.symm.trans_lt (mul_lt_mul_of_pos_right hn2 hu)
  · rw [m1, sub_mul, htq]
  · rw [m2]; push_cast; rw [show (1 - (t - (⌊t⌋₊ : ℚ))) * 2 ^ f.ulp q = ((⌊t⌋₊ : ℚ) + 1) * 2 ^ f.ulp q - t * 2 ^ f.ulp q by ring, htq]

theorem Fmt.round_spec {q : ℚ} (hq : 0 ≤ q) :
    f.round q ≤ f.top ∧ (f.mag f.top ≤ q → f.round q = f.top) ∧
    (q ≤ f.mag f.top → ∀ j, |f.mag (f.round q) - q| ≤ |f.mag j - q| ∧
      (j ≠ f.round q → |f.mag j - q| = |f.mag (f.round q) - q| → f.round q % 2 = 0)) := by
  rcases hq.eq_or_lt with rfl | hq
  · have h0 : f.round 0 = 0 := by simp [Fmt.round]
    rw [h0, f.mag_zero]
    refine ⟨Nat.zero_le _, fun h => ?_, fun _ j => ⟨by simp, fun _ _ => rfl⟩⟩
    by_contra hne
    have := f.mag_mono (Nat.pos_of_ne_zero (Ne.symm hne))
    rw [f.mag_zero] at this
    linarith
  · obtain ⟨e, n, hB⟩ := f.between hq
    have hr : f.round q = min (e * 2 ^ f.p + rne (q / 2 ^ f.ulp q)) f.top := by
      unfold Fmt.round
      rw [if_neg hq.ne', hB.place]
      congr 3
      omega
    have hu := two_zpow_pos (f.ulp q)
    have hP2 : 2 ^ f.p % 2 = 0 := by
      obtain ⟨k, hk⟩ : ∃ k, f.p = k + 1 := ⟨f.p - 1, by have := f.p_pos; omega⟩
      rw [hk, Nat.pow_succ]; omega
    have hpar : ∀ m, (e * 2 ^ f.p + m) % 2 = m % 2 := by
      intro m
      rw [Nat.add_mod, Nat.mul_mod, hP2, Nat.mul_zero, Nat.zero_mod, Nat.zero_add, Nat.mod_mod]
    obtain ⟨-, -, -, hfl, lo, hi, fr, fr'⟩ := hB
    generalize hk0 : e * 2 ^ f.p + n = k0 at *
    generalize hd : q / 2 ^ f.ulp q - n = d at *
    have hrne : rne (q / 2 ^ f.ulp q) = if d < 1 / 2 then n else if 1 / 2 < d then n + 1 else if n % 2 = 0 then n else n + 1 := by
      unfold rne; simp only [← hfl, hd]
    have hrne2 : n ≤ rne (q / 2 ^ f.ulp q) ∧ rne (q / 2 ^ f.ulp q) ≤ n + 1 := by rw [hrne]; split_ifs <;> omega
    refine ⟨by rw [hr]; exact Nat.min_le_right _ _, ?_, ?_⟩
    · intro h
      have : f.top < k0 + 1 := f.mag_mono.lt_iff_lt.1 (lt_of_le_of_lt h hi)
      rw [hr]; omega
    · intro h
      -- the distances
      have far : ∀ j, j ≤ k0 ∧ f.mag j ≤ f.mag k0 ∧ |f.mag j - q| = q - f.mag j ∨ k0 + 1 ≤ j ∧ f.mag (k0 + 1) ≤ f.mag j ∧ |f.mag j - q| = f.mag j - q := by
        intro j
        rcases Nat.lt_or_ge k0 j with h1 | h1
        · right
          have := f.mag_mono.monotone h1
          exact ⟨h1, this, abs_of_nonneg (by linarith)⟩
        · left
          have := f.mag_mono.monotone h1
          exact ⟨h1, this, by rw [abs_of_nonpos (by linarith)]; ring⟩
      have eq_of : ∀ {i j}, f.mag i = f.mag j → i = j := fun h => f.mag_mono.injective h
      have near : ∀ r, (r = k0 ∧ d ≤ 1 / 2 ∧ (d = 1 / 2 → r % 2 = 0) ∨ r = k0 + 1 ∧ 1 / 2 ≤ d ∧ (d = 1 / 2 → r % 2 = 0)) →
          ∀ j, |f.mag r - q| ≤ |f.mag j - q| ∧ (j ≠ r → |f.mag j - q| = |f.mag r - q| → r % 2 = 0) := by
        rintro r (⟨rfl, h1, h2⟩ | ⟨rfl, h1, h2⟩) j
        · have a1 : |f.mag r - q| = q - f.mag r := by rw [abs_of_nonpos (by linarith)]; ring
          have key : q - f.mag r ≤ f.mag (r + 1) - q := by rw [fr, fr']; nlinarith
          rcases far j with ⟨b1, b2, b3⟩ | ⟨b1, b2, b3⟩
          · rw [a1, b3]
            exact ⟨by linarith, fun hne he => absurd (eq_of (by linarith)) hne⟩
          · rw [a1, b3]
            refine ⟨by linarith, fun hne he => h2 ?_⟩
            have : q - f.mag r = f.mag (r + 1) - q := by linarith
            rw [fr, fr'] at this
            have := mul_right_cancel₀ hu.ne' this
            linarith
        · have a1 : |f.mag (k0 + 1) - q| = f.mag (k0 + 1) - q := abs_of_nonneg (by linarith)
          have key : f.mag (k0 + 1) - q ≤ q - f.mag k0 := by rw [fr, fr']; nlinarith
          rcases far j with ⟨b1, b2, b3⟩ | ⟨b1, b2, b3⟩
          · rw [a1, b3]
            refine ⟨by linarith, fun hne he => h2 ?_⟩
            have : q - f.mag k0 = f.mag (k0 + 1) - q := by linarith
            rw [fr, fr'] at this
            have := mul_right_cancel₀ hu.ne' this
            linarith
          · rw [a1, b3]
            exact ⟨by linarith, fun hne he => absurd (eq_of (by linarith)) hne⟩
      have hk0t : k0 ≤ f.top := f.mag_mono.le_iff_le.1 (le_trans lo h)
      by_cases hkt : k0 = f.top
      · -- q is the number at the top
        have hq' : q = f.mag k0 := le_antisymm (by rw [hkt]; exact h) lo
        have : f.round q = k0 := by rw [hr]; omega
        rw [this]
        have hd0 : d = 0 := by
          have h0 : (0 : ℚ) = d * 2 ^ f.ulp q := by rw [← fr, ← hq']; ring
          rcases mul_eq_zero.1 h0.symm with h | h
          · exact h
          · exact absurd h hu.ne'
        exact near k0 (.inl ⟨rfl, by rw [hd0]; norm_num, fun h => by rw [hd0] at h; norm_num at h⟩)
      · have : f.round q = e * 2 ^ f.p + rne (q / 2 ^ f.ulp q) := by rw [hr]; omega
        rw [this]
        apply near
        rw [hrne]
        split_ifs with h1 h2 h3
        · exact .inl ⟨hk0, by linarith, fun h => by linarith⟩
        · exact .inr ⟨by omega, by linarith, fun h => by linarith⟩
        · exact .inl ⟨hk0, by linarith, fun _ => by rw [hpar]; exact h3⟩
        · exact .inr ⟨by omega, by linarith, fun _ => by rw [hpar]; omega⟩

end Verif.Ieee
