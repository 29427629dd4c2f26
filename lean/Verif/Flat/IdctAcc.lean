import Verif.Flat.IdctErr
import Verif.Flat.Idct
/-
The accuracy of the IDCT example.
-/
namespace Verif.Flat
open Real

theorem lin_close {A B z : ℕ → ℝ} {e : ℝ} (h : ∀ u < 8, |A u - B u| ≤ e) : |lin A z - lin B z| ≤ e * ∑ u ∈ Finset.range 8, |z u| := by
  unfold lin
  rw [← Finset.sum_sub_distrib, Finset.mul_sum]
  refine (Finset.abs_sum_le_sum_abs _ _).trans (Finset.sum_le_sum fun u hu => ?_)
  rw [← sub_mul, abs_mul]
  exact mul_le_mul_of_nonneg_right (h u (Finset.mem_range.mp hu)) (abs_nonneg _)

theorem lin_bound {A z : ℕ → ℝ} {e : ℝ} (h : ∀ u < 8, |A u| ≤ e) : |lin A z| ≤ e * ∑ u ∈ Finset.range 8, |z u| := by
  have := lin_close (A := A) (B := fun _ => 0) (z := z) (e := e) (fun u hu => by simpa using h u hu)
  simpa [lin] using this

theorem lin_sub (A y z : ℕ → ℝ) : lin A y - lin A z = lin A fun u => y u - z u := by
  unfold lin
  rw [← Finset.sum_sub_distrib]
  exact Finset.sum_congr rfl fun u _ => by ring

theorem approx_bound (x u : ℕ) (hx : x < 8) (hu : u < 8) : |approx x u| ≤ 2841 := by
  rw [abs_le]
  interval_cases x <;> interval_cases u <;> simp only [approx] <;> norm_num

theorem exact_bound (x u : ℕ) (hx : x < 8) (hu : u < 8) : |exact' x u| ≤ 2842 := by
  have h1 := approx_bound x u hx hu
  have h2 := coef_close x u hx hu
  rw [abs_le] at h1 h2 ⊢
  norm_num at h2
  constructor <;> linarith

/-- The transform by rows and columns. -/
theorem idctExact_lin (F : ℕ → ℕ → ℝ) (y x : ℕ) : 2 ^ 25 * idctExact F y x = lin (exact' y) fun v => lin (exact' x) (F v) := by
  unfold idctExact lin exact'
  rw [← mul_assoc, Finset.mul_sum]
  refine Finset.sum_congr rfl fun v _ => ?_
  rw [Finset.mul_sum, Finset.mul_sum]
  refine Finset.sum_congr rfl fun u _ => ?_
  have : √2 * √2 = 2 := mul_self_sqrt (by norm_num)
  linear_combination (-4194304 * dctWeight u * dctWeight v * F v u * dctCos x u * dctCos y v) * this

theorem row_bound {z : ℕ → ℤ} {k : ℕ} (hk : k < 8) (h : ∑ u ∈ Finset.range 8, |z u| ≤ 369) : |rowZ z k| ≤ 4095 := by
  have h1 := row_lin z k hk
  have h2 := lin_bound (z := fun u => (z u : ℝ)) fun u hu => approx_bound k u hk hu
  have h3 : (∑ u ∈ Finset.range 8, |(z u : ℝ)|) ≤ 369 := by exact_mod_cast h
  rw [abs_le] at h1 h2
  norm_num at h1
  have h4 : |(rowZ z k : ℝ)| < 4096 := by rw [abs_lt]; constructor <;> linarith
  have : |rowZ z k| < 4096 := by exact_mod_cast h4
  omega

theorem row_err {z : ℕ → ℤ} {k : ℕ} (hk : k < 8) (h : ∑ u ∈ Finset.range 8, |z u| ≤ 369) :
    |256 * (rowZ z k : ℝ) - lin (exact' k) (fun u => z u)| ≤ 332 := by
  have h1 := row_lin z k hk
  have h2 := lin_close (z := fun u => (z u : ℝ)) fun u hu => coef_close k u hk hu
  have h3 : (∑ u ∈ Finset.range 8, |(z u : ℝ)|) ≤ 369 := by exact_mod_cast h
  rw [abs_le] at h1 h2 ⊢
  norm_num at h1 h2
  constructor <;> linarith

theorem sum_le {z : ℕ → ℤ} {B : ℤ} (h : ∀ u < 8, |z u| ≤ B) : ∑ u ∈ Finset.range 8, |(z u : ℝ)| ≤ 8 * B := by
  have : ∑ u ∈ Finset.range 8, |z u| ≤ ∑ _u ∈ Finset.range 8, B := Finset.sum_le_sum fun u hu => h u (Finset.mem_range.mp hu)
  rw [Finset.sum_const, Finset.card_range, nsmul_eq_mul] at this
  exact_mod_cast this

theorem col_bound {z : ℕ → ℤ} {k : ℕ} (hk : k < 8) (h : ∀ u < 8, |z u| ≤ 4095) : |colZ z k| ≤ 4095 := by
  have h1 := col_lin z k hk
  have h2 := lin_bound (z := fun u => (z u : ℝ)) fun u hu => approx_bound k u hk hu
  have h3 := sum_le h
  push_cast at h3
  rw [abs_le] at h1 h2
  have h4 : |(colZ z k : ℝ)| < 4096 := by rw [abs_lt]; constructor <;> linarith
  have : |colZ z k| < 4096 := by exact_mod_cast h4
  omega

theorem col_err {z : ℕ → ℤ} {k : ℕ} (hk : k < 8) (h : ∀ u < 8, |z u| ≤ 4095) :
    |16384 * (colZ z k : ℝ) - lin (exact' k) (fun u => z u) / 8| ≤ 10449 := by
  have h1 := col_lin z k hk
  have h2 := lin_close (z := fun u => (z u : ℝ)) fun u hu => coef_close k u hk hu
  have h3 := sum_le h
  push_cast at h3
  rw [abs_le] at h1 h2 ⊢
  norm_num at h2
  constructor <;> linarith

/-- Rows and columns together. -/
theorem both_err {z : ℕ → ℤ} {x y : ℕ} (hx : x < 8) (hy : y < 8) (h : ∀ v < 8, ∑ u ∈ Finset.range 8, |z (8 * v + u)| ≤ 369) :
    |(colZ (fun v => rowZ (fun u => z (8 * v + u)) x) y : ℝ) - idctExact (fun v u => z (8 * v + u)) y x| ≤ 0.87 := by
  have h1 := col_err (z := fun v => rowZ (fun u => z (8 * v + u)) x) hy fun v hv => row_bound hx (h v hv)
  have h2 := idctExact_lin (fun v u => (z (8 * v + u) : ℝ)) y x
  have h3 : |256 * lin (exact' y) (fun v => (rowZ (fun u => z (8 * v + u)) x : ℝ)) - lin (exact' y) fun v => lin (exact' x) fun u => (z (8 * v + u) : ℝ)| ≤
      2842 * (8 * 332) := by
    have e : 256 * lin (exact' y) (fun v => (rowZ (fun u => z (8 * v + u)) x : ℝ)) =
        lin (exact' y) (fun v => 256 * (rowZ (fun u => z (8 * v + u)) x : ℝ)) := by
      unfold lin; rw [Finset.mul_sum]; exact Finset.sum_congr rfl fun _ _ => by ring
    rw [e, lin_sub]
    refine (lin_bound fun u hu => exact_bound y u hy hu).trans (mul_le_mul_of_nonneg_left ?_ (by norm_num))
    have : ∑ v ∈ Finset.range 8, |256 * (rowZ (fun u => z (8 * v + u)) x : ℝ) - lin (exact' x) fun u => (z (8 * v + u) : ℝ)| ≤
        ∑ _v ∈ Finset.range 8, (332 : ℝ) := Finset.sum_le_sum fun v hv => row_err hx (h v (Finset.mem_range.mp hv))
    rw [Finset.sum_const, Finset.card_range, nsmul_eq_mul] at this
    exact_mod_cast this
  rw [abs_le] at h1 h3 ⊢
  norm_num at h1 h2 h3 ⊢
  constructor <;> linarith

theorem toInt_13_of {x : BitVec 32} {z : ℤ} (h : x.toInt = z) (hz : |z| ≤ 4095) : (x.signExtend 13).toInt = z := by
  rw [abs_le] at hz
  rw [BitVec.toInt_signExtend, h]
  exact Int.bmod_eq_of_le (by norm_num; omega) (by norm_num; omega)

theorem toInt_32_of (x : BitVec 13) : (x.signExtend 32).toInt = x.toInt := BitVec.toInt_signExtend_of_le (by decide)

theorem clip_close (q : ℤ) (e : ℝ) : |(clip9 q : ℝ) - clipReal e| ≤ |(q : ℝ) - e| := by
  have : (clip9 q : ℝ) = clipReal q := by
    unfold clip9 clipReal
    split
    · rename_i h
      have : (q : ℝ) < -256 := by exact_mod_cast h
      rw [min_eq_right (by linarith), max_eq_left (by linarith)]; norm_num
    · split
      · rename_i h
        have : (255 : ℝ) < q := by exact_mod_cast h
        rw [min_eq_left (by linarith), max_eq_right (by norm_num)]; norm_num
      · rename_i h1 h2
        have : (-256 : ℝ) ≤ q := by exact_mod_cast (not_lt.mp h1)
        have : (q : ℝ) ≤ 255 := by exact_mod_cast (not_lt.mp h2)
        rw [min_eq_right (by linarith), max_eq_right (by linarith)]
  rw [this]
  unfold clipReal
  refine (abs_max_sub_max_le_max _ _ _ _).trans ?_
  simp only [sub_self, abs_zero]
  refine max_le (abs_nonneg _) ((abs_min_sub_min_le_max _ _ _ _).trans ?_)
  simp

theorem clip9_toInt (q : ℤ) : (BitVec.ofInt 9 (clip9 q)).toInt = clip9 q := by
  rw [BitVec.toInt_ofInt]
  unfold clip9
  refine Int.bmod_eq_of_le ?_ ?_ <;> norm_num <;> split <;> first | omega | (split <;> omega)

theorem sum8 (f : ℕ → ℤ) : ∑ u ∈ Finset.range 8, f u = f 0 + f 1 + f 2 + f 3 + f 4 + f 5 + f 6 + f 7 := by
  simp [Finset.sum_range_succ]

/-- The row transform: eight times the one-dimensional inverse DCT (with weight √2), with an error of at most half a unit and 0.22 per cent of the sum of
the magnitudes of the coefficients, if this sum is at most 2950. -/
theorem idctRow_accurate {x : Nat → BitVec 32} (h : ∑ u ∈ Finset.range 8, |(x u).toInt| ≤ 2950) {k : Nat} (hk : k < 8) :
    |(((idctRow x k).signExtend 16).toInt : ℝ) - 8 * √2 * ∑ u ∈ Finset.range 8, dctWeight u * (x u).toInt * dctCos k u| ≤
      0.51 + 0.0022 * ∑ u ∈ Finset.range 8, |((x u).toInt : ℝ)| := by
  have e := idctRow_int (x := x) (z := fun u => (x u).toInt) (fun _ _ => rfl) (by rw [sum8] at h; exact h) k
  have h1 := row_lin (fun u => (x u).toInt) k hk
  have h2 := lin_close (z := fun u => ((x u).toInt : ℝ)) fun u hu => coef_close k u hk hu
  have h3 : (∑ u ∈ Finset.range 8, |((x u).toInt : ℝ)|) ≤ 2950 := by exact_mod_cast h
  have h4 := lin_bound (z := fun u => ((x u).toInt : ℝ)) fun u hu => approx_bound k u hk hu
  have hz : |(rowZ (fun u => (x u).toInt) k : ℝ)| < 32768 := by
    rw [abs_le] at h1 h4
    norm_num at h1
    rw [abs_lt]; constructor <;> linarith
  have hz' : |rowZ (fun u => (x u).toInt) k| < 32768 := by exact_mod_cast hz
  have e16 : ((idctRow x k).signExtend 16).toInt = rowZ (fun u => (x u).toInt) k := by
    rw [abs_lt] at hz'
    rw [BitVec.toInt_signExtend, e]
    exact Int.bmod_eq_of_le (by norm_num; omega) (by norm_num; omega)
  have el : 256 * (8 * √2 * ∑ u ∈ Finset.range 8, dctWeight u * ((x u).toInt : ℝ) * dctCos k u) = lin (exact' k) fun u => ((x u).toInt : ℝ) := by
    unfold lin exact'
    rw [← mul_assoc, Finset.mul_sum]
    exact Finset.sum_congr rfl fun u _ => by ring
  rw [e16]
  generalize 8 * √2 * ∑ u ∈ Finset.range 8, dctWeight u * ((x u).toInt : ℝ) * dctCos k u = T at el ⊢
  generalize (∑ u ∈ Finset.range 8, |((x u).toInt : ℝ)|) = S at *
  have hS : 0 ≤ S := by
    have := (abs_nonneg _).trans h4
    linarith
  rw [abs_le] at h1 h2 ⊢
  norm_num at h1 h2 ⊢
  constructor <;> linarith

/-- For every block in which the magnitudes of the coefficients of each row add up to at most 369, every sample is within one of the exact inverse
DCT, clipped. -/
theorem idct2D_accurate_partial {c : Nat → BitVec 32} (h : ∀ v < 8, ∑ u ∈ Finset.range 8, |(c (8 * v + u)).toInt| ≤ 369) {k : Nat} (hk : k < 64) :
    |((idct2D 13 c k).toInt : ℝ) - clipReal (idctExact (fun v u => ((c (8 * v + u)).toInt : ℝ)) (k / 8) (k % 8))| < 1 := by
  have hx : k % 8 < 8 := by omega
  have hy : k / 8 < 8 := by omega
  have hr : ∀ v < 8, ((idctRow (fun u => c (8 * v + u)) (k % 8)).signExtend 13).toInt = rowZ (fun u => (c (8 * v + u)).toInt) (k % 8) :=
    fun v hv => toInt_13_of (idctRow_int (z := fun u => (c (8 * v + u)).toInt) (fun _ _ => rfl) (by
      have := h v hv
      rw [sum8] at this
      exact this.trans (by norm_num)) _) (row_bound hx (h v hv))
  have hc : ((idctCol (fun v => ((idctRow (fun u => c (8 * v + u)) (k % 8)).signExtend 13).signExtend 32) (k / 8)).signExtend 13).toInt =
      colZ (fun v => rowZ (fun u => (c (8 * v + u)).toInt) (k % 8)) (k / 8) := by
    refine toInt_13_of (idctCol_int (fun v hv => ?_) _) (col_bound hy fun v hv => row_bound hx (h v hv))
    have := row_bound hx (h v hv)
    rw [abs_le] at this
    exact ⟨(toInt_32_of _).trans (hr v hv), by omega, by omega⟩
  unfold idct2D
  simp only [clip9_toInt]
  rw [hc]
  have e := both_err (z := fun i => (c i).toInt) hx hy h
  refine lt_of_le_of_lt ((clip_close _ _).trans e) (by norm_num)

/-- The output port of the hardware (`idct_realizes`): sample `k` of the word shown for the input word of cycle `t`. -/
theorem idct_port_accurate_partial (port : Env) (t : Nat)
    (h : ∀ v < 8, ∑ u ∈ Finset.range 8, |(coef12 port t (8 * v + u)).toInt| ≤ 369) {k : Nat} (hk : k < 64) :
    |(((idctOut.val port t).extractLsb' (9 * k) 9).toInt : ℝ) -
      clipReal (idctExact (fun v u => ((coef12 port t (8 * v + u)).toInt : ℝ)) (k / 8) (k % 8))| < 1 := by
  have e : (idctOut.val port t).extractLsb' (9 * k) 9 = idct2D 13 (coef12 port t) k := packed_get _ 64 k hk
  rw [e]
  exact idct2D_accurate_partial h hk

/-! ### Blocks with one coefficient -/

theorem row_dc (d : BitVec 32) (k : Nat) : idctRow (fun u => if u = 0 then d else 0) k = ((d <<< 11) + 128).sshiftRight 8 := by
  rcases k with _ | _ | _ | _ | _ | _ | _ | k <;> simp [idctRow]

theorem col_dc (d : BitVec 32) (k : Nat) : idctCol (fun u => if u = 0 then d else 0) k = ((d <<< 8) + 8192).sshiftRight 14 := by
  rcases k with _ | _ | _ | _ | _ | _ | _ | k <;> simp [idctCol]

/-- A block with the first coefficient `d` only: all samples are `d / 8`, rounded, but with `d` taken modulo 1024. -/
theorem idct2D_dc {d : BitVec 32} (h1 : -2048 ≤ d.toInt) (h2 : d.toInt < 2048) (k : Nat) :
    (idct2D 13 (fun i => if i = 0 then d else 0) k).toInt = (d.toInt.bmod 1024 + 4) / 8 := by
  have hrow : ∀ v, idctRow (fun u => if 8 * v + u = 0 then d else 0) (k % 8) = if v = 0 then ((d <<< 11) + 128).sshiftRight 8 else 0 := by
    intro v
    by_cases hv : v = 0
    · subst hv
      simp only [Nat.mul_zero, Nat.zero_add, if_true]
      exact row_dc d _
    · rw [if_neg hv]
      have e : (fun u => if 8 * v + u = 0 then d else 0) = fun u => if u = 0 then (0 : BitVec 32) else 0 := by
        funext u; rw [if_neg (by omega)]; simp
      rw [e, row_dc]
      decide
  have hd : Rep d d.toInt 2048 := ⟨rfl, h1, by omega⟩
  have hr := ((hd.shl 11 (by decide) (by decide)).add (Rep.const (128 : BitVec 32) 128) (by decide)).shr 8
  have er : (d.toInt * 2 ^ 11 + 128) / 2 ^ 8 = 8 * d.toInt := by omega
  rw [er] at hr
  have h13 : ((((d <<< 11) + 128).sshiftRight 8).signExtend 13).toInt = 8 * d.toInt.bmod 1024 := by
    rw [BitVec.toInt_signExtend, hr.eq]
    have e1 := Int.bmod_def d.toInt 1024
    have e2 := Int.bmod_def (8 * d.toInt) (2 ^ min 13 32)
    norm_num at e1 e2 ⊢
    split at e1 <;> split at e2 <;> omega
  have hb : -512 ≤ d.toInt.bmod 1024 ∧ d.toInt.bmod 1024 < 512 := by
    have e1 := Int.bmod_def d.toInt 1024
    norm_num at e1
    split at e1 <;> omega
  have ec : (fun v => ((idctRow (fun u => if 8 * v + u = 0 then d else 0) (k % 8)).signExtend 13).signExtend 32) =
      fun v => if v = 0 then (((((d <<< 11) + 128).sshiftRight 8).signExtend 13).signExtend 32) else 0 := by
    funext v
    rw [hrow]
    by_cases hv : v = 0
    · rw [if_pos hv, if_pos hv]
    · rw [if_neg hv, if_neg hv]; decide
  unfold idct2D
  simp only [clip9_toInt]
  rw [ec, col_dc]
  have hs : Rep (((((d <<< 11) + 128).sshiftRight 8).signExtend 13).signExtend 32) (8 * d.toInt.bmod 1024) 4096 :=
    ⟨(toInt_32_of _).trans h13, by omega, by omega⟩
  have hc := ((hs.shl 8 (by decide) (by decide)).add (Rep.const (8192 : BitVec 32) 8192) (by decide)).shr 14
  have ed : (8 * d.toInt.bmod 1024 * 2 ^ 8 + 8192) / 2 ^ 14 = (d.toInt.bmod 1024 + 4) / 8 := by omega
  rw [ed] at hc
  rw [toInt_13_of hc.eq (by rw [abs_le]; omega)]
  unfold clip9
  rw [if_neg (by omega), if_neg (by omega)]

theorem exact_dc (d : ℝ) (y x : ℕ) : idctExact (fun v u => if 8 * v + u = 0 then d else 0) y x = d / 8 := by
  have h := idctExact_lin (fun v u => if 8 * v + u = 0 then d else 0) y x
  have e1 : (fun v => lin (exact' x) fun u => if 8 * v + u = 0 then d else 0) = fun v => if v = 0 then 2048 * d else 0 := by
    funext v
    by_cases hv : v = 0
    · subst hv; rw [lin_eq]; simp [exact_zero]
    · rw [if_neg hv, lin_eq]; simp [hv]
  rw [e1, lin_eq] at h
  generalize idctExact (fun v u => if 8 * v + u = 0 then d else 0) y x = r at h ⊢
  simp only [exact_zero] at h
  norm_num at h
  linarith

/-- Every block with a first coefficient outside -512 ... 511 and no others is decoded wrongly, by more than 127 of 512 levels, at every sample. -/
theorem idct2D_inaccurate {d : BitVec 32} (h1 : -2048 ≤ d.toInt) (h2 : d.toInt < 2048) (h : d.toInt < -512 ∨ 512 ≤ d.toInt) (k : Nat) :
    127 < |((idct2D 13 (fun i => if i = 0 then d else 0) k).toInt : ℝ) -
      clipReal (idctExact (fun v u => (((if 8 * v + u = 0 then d else 0 : BitVec 32)).toInt : ℝ)) (k / 8) (k % 8))| := by
  have e : (fun v u => (((if 8 * v + u = 0 then d else 0 : BitVec 32)).toInt : ℝ)) = fun v u => if 8 * v + u = 0 then (d.toInt : ℝ) else 0 := by
    funext v u
    split <;> simp
  rw [e, exact_dc, idct2D_dc h1 h2]
  have e1 := Int.bmod_def d.toInt 1024
  norm_num at e1
  generalize d.toInt = z at *
  generalize z.bmod 1024 = b at *
  have cast_le : ∀ {a b : ℤ}, a ≤ b → (a : ℝ) ≤ b := fun h => by exact_mod_cast h
  generalize hq : (b + 4) / 8 = q
  rw [lt_abs]
  unfold clipReal
  have hc : (z ≤ -1537 ∧ 0 ≤ q) ∨ (z ≤ -513 ∧ -1536 ≤ z ∧ z + 1021 ≤ 8 * q) ∨ (512 ≤ z ∧ z ≤ 1535 ∧ 8 * q ≤ z - 1020) ∨ (1536 ≤ z ∧ q ≤ 0) := by
    split at e1 <;> omega
  rcases hc with ⟨a1, a2⟩ | ⟨a1, a2, a3⟩ | ⟨a1, a2, a3⟩ | ⟨a1, a2⟩
  · left
    replace a1 := cast_le a1; replace a2 := cast_le a2
    push_cast at a1 a2
    have : max (-256) (min 255 ((z : ℝ) / 8)) < -192 := max_lt (by norm_num) ((min_le_right _ _).trans_lt (by linarith))
    linarith
  · left
    replace a1 := cast_le a1; replace a2 := cast_le a2; replace a3 := cast_le a3
    push_cast at a1 a2 a3
    rw [min_eq_right (by linarith), max_eq_right (by linarith)]
    linarith
  · right
    replace a1 := cast_le a1; replace a2 := cast_le a2; replace a3 := cast_le a3
    push_cast at a1 a2 a3
    rw [min_eq_right (by linarith), max_eq_right (by linarith)]
    linarith
  · right
    replace a1 := cast_le a1; replace a2 := cast_le a2
    push_cast at a1 a2
    have : 192 ≤ max (-256) (min 255 ((z : ℝ) / 8)) := (le_min (by norm_num) (by linarith)).trans (le_max_right _ _)
    linarith

/-- An input word that holds the coefficient `d` at place 0 and nothing else. -/
theorem coef12_dc {port : Env} {t : Nat} {d : BitVec 12} (h : port "x" t = d.toNat) :
    coef12 port t = fun i => if i = 0 then d.signExtend 32 else 0 := by
  funext i
  unfold coef12
  rw [h]
  have hd := d.isLt
  have e : (BitVec.ofNat 768 d.toNat).extractLsb' (12 * i) 12 = if i = 0 then d else 0 := by
    refine BitVec.eq_of_toNat_eq ?_
    rw [BitVec.extractLsb'_toNat, BitVec.toNat_ofNat, Nat.mod_eq_of_lt (hd.trans (Nat.pow_lt_pow_right (by decide) (by decide))), Nat.shiftRight_eq_div_pow]
    by_cases hi : i = 0
    · subst hi; rw [if_pos rfl, Nat.mul_zero, Nat.pow_zero, Nat.div_one, Nat.mod_eq_of_lt hd]
    · rw [if_neg hi, Nat.div_eq_of_lt (hd.trans_le (Nat.pow_le_pow_right (by decide) (by omega)))]; rfl
  rw [e]
  by_cases hi : i = 0
  · rw [if_pos hi, if_pos hi]
  · rw [if_neg hi, if_neg hi]; decide

/-- What the hardware shows for these words: all samples are wrong. -/
theorem idct_port_inaccurate {port : Env} {t : Nat} {d : BitVec 12} (hp : port "x" t = d.toNat) (h : d.toInt < -512 ∨ 512 ≤ d.toInt) {k : Nat} (hk : k < 64) :
    127 < |(((idctOut.val port t).extractLsb' (9 * k) 9).toInt : ℝ) -
      clipReal (idctExact (fun v u => ((coef12 port t (8 * v + u)).toInt : ℝ)) (k / 8) (k % 8))| := by
  have e : (idctOut.val port t).extractLsb' (9 * k) 9 = idct2D 13 (coef12 port t) k := packed_get _ 64 k hk
  have ed : (d.signExtend 32).toInt = d.toInt := BitVec.toInt_signExtend_of_le (by decide)
  have b1 := d.le_toInt
  have b2 := d.toInt_lt
  rw [e, coef12_dc hp]
  exact idct2D_inaccurate (by rw [ed]; omega) (by rw [ed]; omega) (by rw [ed]; exact h) k

end Verif.Flat
