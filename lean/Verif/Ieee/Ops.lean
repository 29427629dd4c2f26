import Verif.Ieee.Round
import Mathlib.Tactic.SplitIfs
/-
The operations, computed: decode, calculate exactly, round.
-/
namespace Verif.Ieee
variable (f : Fmt)

/-- What a datum stands for: `num` with the sign to give a zero. -/
inductive Datum where
  | nan
  | inf (s : Bool)
  | num (s : Bool) (q : ℚ)

def Fmt.dec (b : Nat) : Datum :=
  if f.expo b = 2 ^ f.w - 1 then if f.frac b = 0 then .inf (f.neg b) else .nan else .num (f.neg b) (f.value b)

/-- Sign bit. -/
def Fmt.sgn (s : Bool) : Nat := if s then 2 ^ (f.p + f.w) else 0

/-- Which NaN an operation gives is up to the implementation (6.2.3): here a quiet one without payload. -/
def Fmt.enc : Datum → Nat
  | .nan => f.top + 2 ^ (f.p - 1)
  | .inf s => f.sgn s + f.top
  | .num s q => f.sgn (if q = 0 then s else decide (q < 0)) + f.round |q|

def Datum.add : Datum → Datum → Datum
  | .nan, _ => .nan
  | _, .nan => .nan
  | .inf s, .inf t => if s = t then .inf s else .nan
  | .inf s, .num _ _ => .inf s
  | .num _ _, .inf t => .inf t
  | .num s x, .num t y => .num (s && t) (x + y)

def Datum.neg : Datum → Datum
  | .nan => .nan
  | .inf s => .inf !s
  | .num s x => .num (!s) (-x)

def Datum.mul : Datum → Datum → Datum
  | .nan, _ => .nan
  | _, .nan => .nan
  | .inf s, .inf t => .inf (s ^^ t)
  | .inf s, .num t y => if y = 0 then .nan else .inf (s ^^ t)
  | .num s x, .inf t => if x = 0 then .nan else .inf (s ^^ t)
  | .num s x, .num t y => .num (s ^^ t) (x * y)

def Datum.div : Datum → Datum → Datum
  | .nan, _ => .nan
  | _, .nan => .nan
  | .inf _, .inf _ => .nan
  | .inf s, .num t _ => .inf (s ^^ t)
  | .num s _, .inf t => .num (s ^^ t) 0
  | .num s x, .num t y => if y = 0 then if x = 0 then .nan else .inf (s ^^ t) else .num (s ^^ t) (x / y)

def Datum.lt : Datum → Datum → Bool
  | .nan, _ => false
  | _, .nan => false
  | .inf s, .inf t => s && !t
  | .inf s, .num _ _ => s
  | .num _ _, .inf t => !t
  | .num _ x, .num _ y => decide (x < y)

def Datum.eq : Datum → Datum → Bool
  | .inf s, .inf t => s == t
  | .num _ x, .num _ y => decide (x = y)
  | _, _ => false

/-- The other sign (5.5.1: a change of one bit). -/
def Fmt.flip (b : Nat) : Nat := if f.neg b then b - 2 ^ (f.p + f.w) else b + 2 ^ (f.p + f.w)

def Fmt.add (a b : Nat) : Nat := f.enc ((f.dec a).add (f.dec b))
def Fmt.sub (a b : Nat) : Nat := f.add a (f.flip b)
def Fmt.mul (a b : Nat) : Nat := f.enc ((f.dec a).mul (f.dec b))
def Fmt.div (a b : Nat) : Nat := f.enc ((f.dec a).div (f.dec b))
def Fmt.lt (a b : Nat) : Bool := (f.dec a).lt (f.dec b)
def Fmt.eq (a b : Nat) : Bool := (f.dec a).eq (f.dec b)

/-! ### Fields -/

/-- Exponent and significand fields. -/
def Fmt.low (b : Nat) : Nat := b % 2 ^ (f.p + f.w)

theorem Fmt.top_lt : f.top < 2 ^ (f.p + f.w) := by
  unfold Fmt.top
  rw [Nat.pow_add, Nat.mul_comm]
  have : 0 < 2 ^ f.w := Nat.two_pow_pos _
  exact Nat.mul_lt_mul_of_pos_left (by omega) (Nat.two_pow_pos _)

theorem Fmt.expo_low (b : Nat) : f.expo b = f.low b / 2 ^ f.p := by
  unfold Fmt.expo Fmt.low
  rw [Nat.pow_add, Nat.mod_mul_right_div_self]

theorem Fmt.frac_low (b : Nat) : f.frac b = f.low b % 2 ^ f.p := by
  unfold Fmt.frac Fmt.low
  rw [Nat.pow_add, Nat.mod_mul_right_mod]

theorem Fmt.low_lt (b : Nat) : f.low b < 2 ^ (f.p + f.w) := Nat.mod_lt _ (Nat.two_pow_pos _)

theorem Fmt.top_iff (b : Nat) : f.expo b = 2 ^ f.w - 1 ↔ f.top ≤ f.low b := by
  have hl := f.low_lt b
  rw [f.expo_low, Fmt.top]
  rw [Nat.pow_add, Nat.mul_comm] at hl
  have h1 : f.low b / 2 ^ f.p < 2 ^ f.w := (Nat.div_lt_iff_lt_mul (Nat.two_pow_pos _)).2 hl
  have h2 := Nat.le_div_iff_mul_le (Nat.two_pow_pos f.p) (x := 2 ^ f.w - 1) (y := f.low b)
  omega

theorem Fmt.isFinite_iff (b : Nat) : f.IsFinite b ↔ f.low b < f.top := by
  unfold Fmt.IsFinite; rw [Ne, f.top_iff]; omega

theorem Fmt.frac_zero {b : Nat} (h : f.expo b = 2 ^ f.w - 1) : f.frac b = 0 ↔ f.low b = f.top := by
  have h1 := f.expo_low b
  have h2 := f.frac_low b
  have h3 := Nat.div_add_mod (f.low b) (2 ^ f.p)
  rw [← h1, h, ← h2, Nat.mul_comm] at h3
  unfold Fmt.top; omega

theorem Fmt.isInf_iff (b : Nat) : f.IsInf b ↔ f.low b = f.top := by
  unfold Fmt.IsInf
  constructor
  · rintro ⟨h1, h2⟩; exact (f.frac_zero h1).1 h2
  · intro h
    have := (f.top_iff b).2 h.ge
    exact ⟨this, (f.frac_zero this).2 h⟩

theorem Fmt.isNaN_iff (b : Nat) : f.IsNaN b ↔ f.top < f.low b := by
  unfold Fmt.IsNaN
  constructor
  · rintro ⟨h1, h2⟩
    have := (f.top_iff b).1 h1
    have h3 := mt (f.frac_zero h1).2 h2
    omega
  · intro h
    have := (f.top_iff b).2 h.le
    exact ⟨this, fun h' => by have := (f.frac_zero this).1 h'; omega⟩

theorem Fmt.value_mag (b : Nat) : f.value b = (if f.neg b then -1 else 1) * f.mag (f.low b) := by
  unfold Fmt.value Fmt.mag
  rw [← f.expo_low, ← f.frac_low]
  split_ifs with h1 h2
  · have : f.low b = f.frac b := by
      have h3 := Nat.div_add_mod (f.low b) (2 ^ f.p)
      rw [← f.expo_low, h2, ← f.frac_low] at h3
      omega
    rw [this]
  · rfl
  · have : f.low b = f.frac b := by
      have h3 := Nat.div_add_mod (f.low b) (2 ^ f.p)
      rename_i h2
      rw [← f.expo_low, h2, ← f.frac_low] at h3
      omega
    rw [this]
  · rfl

theorem Fmt.abs_value (b : Nat) : |f.value b| = f.mag (f.low b) := by
  rw [f.value_mag, abs_mul, abs_of_nonneg (f.mag_nonneg _)]
  split_ifs <;> simp

theorem Fmt.low_enc (s : Bool) {k : Nat} (hk : k < 2 ^ (f.p + f.w)) : f.low (f.sgn s + k) = k := by
  unfold Fmt.low Fmt.sgn
  split
  · rw [Nat.add_mod_left, Nat.mod_eq_of_lt hk]
  · rw [Nat.zero_add, Nat.mod_eq_of_lt hk]

theorem Fmt.neg_enc (s : Bool) {k : Nat} (hk : k < 2 ^ (f.p + f.w)) : f.neg (f.sgn s + k) = s := by
  unfold Fmt.neg Fmt.sgn
  cases s
  · simp [Nat.div_eq_of_lt hk]
  · simp [Nat.add_div_left, Nat.two_pow_pos, Nat.div_eq_of_lt hk]

theorem Fmt.two_p : 2 ^ f.p % 2 = 0 := by
  obtain ⟨k, hk⟩ : ∃ k, f.p = k + 1 := ⟨f.p - 1, by have := f.p_pos; omega⟩
  rw [hk, Nat.pow_succ]; omega

theorem Fmt.enc_even (s : Bool) (k : Nat) : (f.sgn s + k) % 2 = k % 2 := by
  unfold Fmt.sgn
  split
  · rw [Nat.add_mod, Nat.pow_add, Nat.mul_mod, f.two_p]; simp
  · rw [Nat.zero_add]

theorem Fmt.top_even : f.top % 2 = 0 := by unfold Fmt.top; rw [Nat.mul_mod, f.two_p]; simp

theorem Fmt.top_pos : 0 < f.top := by
  unfold Fmt.top
  have : 2 ^ 1 < 2 ^ f.w := Nat.pow_lt_pow_right (by decide) (by have := f.w_two; omega)
  exact Nat.mul_pos (by omega) (Nat.two_pow_pos _)

/-! ### Overflow -/

theorem Fmt.two_w : 2 ^ f.w = 2 * 2 ^ (f.w - 1) := by
  rw [← Nat.pow_succ']; congr 1; have := f.w_two; omega

theorem Fmt.two_w' : 2 ≤ 2 ^ (f.w - 1) := by
  calc 2 = 2 ^ 1 := rfl
    _ ≤ _ := Nat.pow_le_pow_right (by decide) (by have := f.w_two; omega)

theorem Fmt.mag_top : f.mag f.top = 2 ^ (2 ^ (f.w - 1)) := by
  have h1 := f.two_w
  have h2 := f.two_w'
  have e : f.top = (2 ^ f.w - 2) * 2 ^ f.p + 2 ^ f.p := by
    unfold Fmt.top
    rw [← Nat.succ_mul]; congr 1; omega
  rw [e, f.mag_at _ _ (.inl (Nat.le_refl _)) (by omega)]
  have : f.emin + ((2 ^ f.w - 2 : Nat) : Int) = ((2 ^ (f.w - 1) : Nat) : Int) - f.p := by
    unfold Fmt.emin; rw [h1]
    have : ((2 ^ (f.w - 1) : Nat) : Int) = 2 ^ (f.w - 1) := by push_cast; rfl
    omega
  rw [this, zpow_sub₀ (by norm_num), zpow_natCast, zpow_natCast]
  push_cast
  field_simp

theorem Fmt.mag_pred_top : f.mag (f.top - 1) = 2 ^ (2 ^ (f.w - 1)) - 2 ^ ((2 ^ (f.w - 1) : Int) - f.p - 1) := by
  have h1 := f.two_w
  have h2 := f.two_w'
  have hP := Nat.two_pow_pos f.p
  have e : f.top - 1 = (2 ^ f.w - 3) * 2 ^ f.p + (2 * 2 ^ f.p - 1) := by
    unfold Fmt.top
    obtain ⟨d, hd⟩ : ∃ d, 2 ^ f.w = d + 3 := ⟨2 ^ f.w - 3, by omega⟩
    rw [hd, show d + 3 - 1 = d + 2 by omega, show d + 3 - 3 = d by omega, Nat.add_mul]
    omega
  rw [e, f.mag_at _ _ (.inl (by omega)) (by omega)]
  have c : ((2 ^ (f.w - 1) : Nat) : Int) = 2 ^ (f.w - 1) := by push_cast; rfl
  have : f.emin + ((2 ^ f.w - 3 : Nat) : Int) = ((2 ^ (f.w - 1) : Nat) : Int) - f.p - 1 := by
    unfold Fmt.emin; rw [h1]
    omega
  rw [this, Nat.cast_sub (by omega), ← c]
  have hz : ((2 * 2 ^ f.p : Nat) : ℚ) * 2 ^ (((2 ^ (f.w - 1) : Nat) : Int) - f.p - 1) = 2 ^ (2 ^ (f.w - 1)) := by
    rw [zpow_sub₀ (by norm_num), zpow_sub₀ (by norm_num), zpow_natCast, zpow_natCast]
    push_cast
    field_simp
  rw [sub_mul, hz]
  push_cast
  ring

theorem Fmt.overflow_mid : f.overflow = (f.mag (f.top - 1) + f.mag f.top) / 2 := by
  rw [f.mag_pred_top, f.mag_top]
  unfold Fmt.overflow
  have : (2 : ℚ) ^ ((2 ^ (f.w - 1) : Int) - f.p - 1) = 2 * 2 ^ ((2 ^ (f.w - 1) : Int) - f.p - 2) := by
    rw [show ((2 ^ (f.w - 1) : Int) - f.p - 1) = ((2 ^ (f.w - 1) : Int) - f.p - 2) + 1 by omega, zpow_add₀ (by norm_num)]
    ring
  rw [this]; ring

theorem Fmt.round_finite {q : ℚ} (hq : 0 ≤ q) : f.round q < f.top ↔ q < f.overflow := by
  obtain ⟨h1, h2, h3⟩ := f.round_spec hq
  have ht := f.top_pos
  have hlt : f.mag (f.top - 1) < f.mag f.top := f.mag_mono (by omega)
  have ho := f.overflow_mid
  rcases le_or_gt (f.mag f.top) q with h | h
  · have := h2 h
    constructor
    · intro; omega
    · intro; linarith
  · have h3 := h3 h.le
    constructor
    · intro hr
      by_contra hge
      rw [not_lt] at hge
      have hk : f.mag (f.round q) ≤ f.mag (f.top - 1) := f.mag_mono.monotone (by omega)
      obtain ⟨a, b⟩ := h3 f.top
      have e1 : |f.mag f.top - q| = f.mag f.top - q := abs_of_nonneg (by linarith)
      have e2 : |f.mag (f.round q) - q| = q - f.mag (f.round q) := by rw [abs_of_nonpos (by linarith)]; ring
      rw [e1, e2] at a b
      have he : f.mag (f.round q) = f.mag (f.top - 1) := by linarith
      have := f.mag_mono.injective he
      have := b (by omega) (by linarith)
      have := f.top_even
      omega
    · intro hlt'
      by_contra hge
      have hr : f.round q = f.top := by omega
      obtain ⟨a, -⟩ := h3 (f.top - 1)
      rw [hr, abs_of_nonneg (by linarith : 0 ≤ f.mag f.top - q)] at a
      rcases le_or_gt (f.mag (f.top - 1)) q with h' | h'
      · rw [abs_of_nonpos (by linarith)] at a; linarith
      · rw [abs_of_pos (by linarith)] at a; linarith

/-! ### Encoding -/

theorem Fmt.low_num (s : Bool) (q : ℚ) : f.low (f.enc (.num s q)) = f.round |q| :=
  f.low_enc _ (lt_of_le_of_lt (f.round_spec (abs_nonneg q)).1 f.top_lt)

theorem Fmt.neg_num (s : Bool) (q : ℚ) : f.neg (f.enc (.num s q)) = if q = 0 then s else decide (q < 0) :=
  f.neg_enc _ (lt_of_le_of_lt (f.round_spec (abs_nonneg q)).1 f.top_lt)

theorem Fmt.round_zero : f.round 0 = 0 := by simp [Fmt.round]

theorem Fmt.enc_num (s : Bool) (q : ℚ) : f.Is (f.enc (.num s q)) q s := by
  have hl := f.low_num s q
  have hs := f.neg_num s q
  have hq := abs_nonneg q
  obtain ⟨r1, r2, r3⟩ := f.round_spec hq
  have hev : f.enc (.num s q) % 2 = f.round |q| % 2 := f.enc_even _ _
  generalize f.enc (.num s q) = b at hl hs hev ⊢
  have hfin := f.round_finite hq
  have hle : |q| < f.overflow → |q| ≤ f.mag f.top := by
    intro h
    have := f.overflow_mid
    have := f.mag_mono (show f.top - 1 < f.top by have := f.top_pos; omega)
    linarith
  -- the distance is the distance of the absolute values
  have hval : f.value b - q = (if q < 0 then -1 else 1) * (f.mag (f.round |q|) - |q|) ∨ q = 0 ∧ f.value b = 0 := by
    by_cases h0 : q = 0
    · right
      refine ⟨h0, ?_⟩
      rw [f.value_mag, hl, h0, abs_zero, f.round_zero, f.mag_zero, mul_zero]
    · left
      rw [f.value_mag, hl, hs, if_neg h0]
      by_cases hn : q < 0
      · simp only [hn, decide_true, if_true]; rw [abs_of_neg hn]; ring
      · simp only [hn, decide_false, if_false, Bool.false_eq_true]; rw [abs_of_nonneg (not_lt.1 hn)]; ring
  have hdist : |f.value b - q| = abs (f.mag (f.round |q|) - |q| ) := by
    rcases hval with h | ⟨h1, h2⟩
    · rw [h, abs_mul]; split_ifs <;> simp
    · rw [h1, h2, abs_zero, f.round_zero, f.mag_zero]
  have hc : ∀ c, abs (f.mag (f.low c) - |q| ) ≤ |f.value c - q| := by
    intro c; rw [← f.abs_value]; exact abs_abs_sub_abs_le_abs_sub _ _
  refine ⟨⟨?_, ?_, ?_, ?_, ?_⟩, ?_⟩
  · intro h
    rw [f.isInf_iff, hl]
    have := mt hfin.1 (not_lt.2 h)
    omega
  · intro h
    rw [f.isFinite_iff, hl]; exact hfin.2 h
  · intro h c _
    rw [hdist]
    exact ((r3 (hle h) (f.low c)).1).trans (hc c)
  · intro h c _ hne he
    have hr := r3 (hle h) (f.low c)
    have h1 := hc c
    rw [he, hdist] at h1
    have h2 := le_antisymm h1 hr.1
    rw [hev]
    by_cases hk : f.low c = f.round |q|
    · exfalso
      have ha : |f.value c| = |f.value b| := by rw [f.abs_value, f.abs_value, hk, hl]
      rcases abs_eq_abs.1 ha with h3 | h3
      · exact hne h3
      · rw [h3] at he
        rcases abs_eq_abs.1 he with h4 | h4
        · have : f.value b = 0 := by linarith
          exact hne (by rw [h3, this, neg_zero])
        · have hq0 : q = 0 := by linarith
          have : f.value b = 0 := by rw [f.value_mag, hl, hq0, abs_zero, f.round_zero, f.mag_zero, mul_zero]
          exact hne (by rw [h3, this, neg_zero])
    · exact hr.2 hk h2
  · intro h; rw [hs, if_neg h]
  · intro h; rw [hs, if_pos h]

theorem Fmt.enc_inf (s : Bool) : f.IsInf (f.enc (.inf s)) ∧ f.neg (f.enc (.inf s)) = s :=
  ⟨(f.isInf_iff _).2 (f.low_enc s f.top_lt), f.neg_enc s f.top_lt⟩

theorem Fmt.enc_nan : f.IsNaN (f.enc .nan) := by
  rw [f.isNaN_iff]
  have hP : 2 ^ (f.p - 1) < 2 ^ f.p := Nat.pow_lt_pow_right (by decide) (by have := f.p_pos; omega)
  have h : f.top + 2 ^ f.p = 2 ^ (f.p + f.w) := by
    unfold Fmt.top
    rw [← Nat.succ_mul, Nat.pow_add, Nat.mul_comm (2 ^ f.p)]; congr 1
    have := Nat.two_pow_pos f.w
    omega
  have := Nat.two_pow_pos (f.p - 1)
  show f.top < (f.top + 2 ^ (f.p - 1)) % _
  rw [Nat.mod_eq_of_lt (by omega)]; omega

/-! ### Decoding -/

theorem Fmt.dec_finite {b : Nat} (h : f.IsFinite b) : f.dec b = .num (f.neg b) (f.value b) := if_neg h
theorem Fmt.dec_inf {b : Nat} (h : f.IsInf b) : f.dec b = .inf (f.neg b) := by unfold Fmt.dec; rw [if_pos h.1, if_pos h.2]
theorem Fmt.dec_nan {b : Nat} (h : f.IsNaN b) : f.dec b = .nan := by unfold Fmt.dec; rw [if_pos h.1, if_neg h.2]

theorem Fmt.cases (b : Nat) : f.IsFinite b ∨ f.IsInf b ∨ f.IsNaN b := by
  unfold Fmt.IsFinite Fmt.IsInf Fmt.IsNaN
  by_cases h : f.expo b = 2 ^ f.w - 1 <;> by_cases h' : f.frac b = 0 <;> simp [h, h']

theorem Fmt.not_inf_of_finite {b : Nat} (h : f.IsFinite b) : ¬ f.IsInf b := fun h' => h h'.1
theorem Fmt.not_nan_of_finite {b : Nat} (h : f.IsFinite b) : ¬ f.IsNaN b := fun h' => h h'.1
theorem Fmt.not_nan_of_inf {b : Nat} (h : f.IsInf b) : ¬ f.IsNaN b := fun h' => h'.2 h.2

theorem Datum.add_nan (d : Datum) : d.add .nan = .nan := by cases d <;> rfl
theorem Datum.mul_nan (d : Datum) : d.mul .nan = .nan := by cases d <;> rfl
theorem Datum.div_nan (d : Datum) : d.div .nan = .nan := by cases d <;> rfl

/-! ### The operations -/

theorem Fmt.add_isSum (a b : Nat) : f.IsSum a b (f.add a b) := by
  refine ⟨?_, ?_, ?_, ?_, ?_⟩
  · intro ha hb
    unfold Fmt.add; rw [f.dec_finite ha, f.dec_finite hb]
    exact f.enc_num _ _
  · intro h
    have : f.add a b = f.enc .nan := by
      unfold Fmt.add
      rcases h with h | h
      · rw [f.dec_nan h]; rfl
      · rw [f.dec_nan h, Datum.add_nan]
    rw [this]; exact f.enc_nan
  · intro ha hb hne
    unfold Fmt.add; rw [f.dec_inf ha, f.dec_inf hb, Datum.add, if_neg hne]
    exact f.enc_nan
  · intro ha hb h
    have : f.add a b = f.enc (.inf (f.neg a)) := by
      unfold Fmt.add
      rw [f.dec_inf ha]
      rcases f.cases b with h' | h' | h'
      · rw [f.dec_finite h']; rfl
      · rw [f.dec_inf h', Datum.add, if_pos (h h')]
      · exact absurd h' hb
    rw [this]; exact f.enc_inf _
  · intro hb ha h
    have : f.add a b = f.enc (.inf (f.neg b)) := by
      unfold Fmt.add
      rw [f.dec_inf hb]
      rcases f.cases a with h' | h' | h'
      · rw [f.dec_finite h']; rfl
      · rw [f.dec_inf h', Datum.add, if_pos (h h'), h h']
      · exact absurd h' ha
    rw [this]; exact f.enc_inf _

theorem Fmt.flip_opposite {b : Nat} (hb : b < 2 ^ (f.p + f.w + 1)) : f.Opposite b (f.flip b) := by
  have hT := Nat.two_pow_pos (f.p + f.w)
  have hdiv : b / 2 ^ (f.p + f.w) < 2 := by
    rw [Nat.div_lt_iff_lt_mul hT, ← Nat.pow_succ']; exact hb
  have hlow : f.low (f.flip b) = f.low b := by
    unfold Fmt.low Fmt.flip
    split
    · rename_i h
      have h1 : 2 ^ (f.p + f.w) ≤ b := by
        unfold Fmt.neg at h
        by_contra hlt
        rw [Nat.div_eq_of_lt (by omega)] at h
        simp at h
      conv_rhs => rw [show b = b - 2 ^ (f.p + f.w) + 2 ^ (f.p + f.w) by omega, Nat.add_mod_right]
    · rw [Nat.add_mod_right]
  refine ⟨?_, ?_, ?_⟩
  · have h01 : b / 2 ^ (f.p + f.w) = 0 ∨ b / 2 ^ (f.p + f.w) = 1 := by
      generalize b / 2 ^ (f.p + f.w) = x at hdiv; omega
    unfold Fmt.flip
    rcases h01 with h | h
    · have hn : f.neg b = false := by unfold Fmt.neg; rw [h]; rfl
      rw [hn, if_neg (by simp)]
      unfold Fmt.neg
      rw [Nat.add_div_right _ hT, h]; rfl
    · have hn : f.neg b = true := by unfold Fmt.neg; rw [h]; rfl
      have h1 := Nat.div_add_mod b (2 ^ (f.p + f.w))
      have h2 := Nat.mod_lt b hT
      rw [h, Nat.mul_one] at h1
      rw [hn, if_pos rfl]
      unfold Fmt.neg
      rw [Nat.div_eq_of_lt (by omega)]; rfl
  · rw [f.expo_low, f.expo_low, hlow]
  · rw [f.frac_low, f.frac_low, hlow]

theorem Fmt.sub_isDifference (a : Nat) {b : Nat} (hb : b < 2 ^ (f.p + f.w + 1)) : f.IsDifference a b (f.sub a b) :=
  ⟨f.flip b, f.flip_opposite hb, f.add_isSum a _⟩

theorem Fmt.mul_isProduct (a b : Nat) : f.IsProduct a b (f.mul a b) := by
  refine ⟨?_, ?_, ?_, ?_, ?_⟩
  · intro ha hb
    unfold Fmt.mul; rw [f.dec_finite ha, f.dec_finite hb]
    exact f.enc_num _ _
  · intro h
    have : f.mul a b = f.enc .nan := by
      unfold Fmt.mul
      rcases h with h | h
      · rw [f.dec_nan h]; rfl
      · rw [f.dec_nan h, Datum.mul_nan]
    rw [this]; exact f.enc_nan
  · intro ha hb
    unfold Fmt.mul; rw [f.dec_inf ha, f.dec_finite hb]
    refine ⟨fun h => ?_, fun h => ?_⟩
    · rw [Datum.mul, if_pos h]; exact f.enc_nan
    · rw [Datum.mul, if_neg h]; exact f.enc_inf _
  · intro ha hb
    unfold Fmt.mul; rw [f.dec_inf hb, f.dec_finite ha]
    refine ⟨fun h => ?_, fun h => ?_⟩
    · rw [Datum.mul, if_pos h]; exact f.enc_nan
    · rw [Datum.mul, if_neg h]; exact f.enc_inf _
  · intro ha hb
    unfold Fmt.mul; rw [f.dec_inf ha, f.dec_inf hb]
    exact f.enc_inf _

theorem Fmt.div_isQuotient (a b : Nat) : f.IsQuotient a b (f.div a b) := by
  refine ⟨?_, ?_, ?_, ?_, ?_, ?_⟩
  · intro ha hb h0
    unfold Fmt.div; rw [f.dec_finite ha, f.dec_finite hb, Datum.div, if_neg h0]
    exact f.enc_num _ _
  · intro ha hb h0
    unfold Fmt.div; rw [f.dec_finite ha, f.dec_finite hb, Datum.div, if_pos h0]
    refine ⟨fun h => ?_, fun h => ?_⟩
    · rw [if_pos h]; exact f.enc_nan
    · rw [if_neg h]; exact f.enc_inf _
  · intro h
    have : f.div a b = f.enc .nan := by
      unfold Fmt.div
      rcases h with h | h
      · rw [f.dec_nan h]; rfl
      · rw [f.dec_nan h, Datum.div_nan]
    rw [this]; exact f.enc_nan
  · intro ha hb
    unfold Fmt.div; rw [f.dec_inf ha, f.dec_finite hb]
    exact f.enc_inf _
  · intro ha hb
    unfold Fmt.div; rw [f.dec_finite ha, f.dec_inf hb]
    have hr := f.low_num (f.neg a ^^ f.neg b) 0
    have hn := f.neg_num (f.neg a ^^ f.neg b) 0
    rw [abs_zero, f.round_zero] at hr
    rw [if_pos rfl] at hn
    exact ⟨(f.isFinite_iff _).2 (by show f.low (f.enc (.num _ 0)) < _; rw [hr]; exact f.top_pos),
      by show f.value (f.enc (.num _ 0)) = 0; rw [f.value_mag, hr, f.mag_zero, mul_zero], hn⟩
  · intro ha hb
    unfold Fmt.div; rw [f.dec_inf ha, f.dec_inf hb]
    exact f.enc_nan

theorem Fmt.lt_iff (a b : Nat) : f.lt a b = true ↔ f.Less a b := by
  unfold Fmt.lt Fmt.Less
  rcases f.cases a with ha | ha | ha <;> rcases f.cases b with hb | hb | hb <;>
    simp only [f.dec_finite, f.dec_inf, f.dec_nan, ha, hb, Datum.lt, f.not_inf_of_finite, f.not_nan_of_finite, f.not_nan_of_inf,
      not_false_iff, true_and, false_and, and_false, or_false, false_or, decide_eq_true_eq, not_true, not_true_eq_false,
      Bool.false_eq_true, forall_true_left, false_imp_iff, and_true, Bool.and_eq_true, Bool.not_eq_true',
      show ∀ c, f.IsInf c → ¬ f.IsFinite c from fun c h h' => h' h.1, show ∀ c, f.IsNaN c → ¬ f.IsFinite c from fun c h h' => h' h.1]
  · tauto

theorem Fmt.eq_iff (a b : Nat) : f.eq a b = true ↔ f.Equal a b := by
  unfold Fmt.eq Fmt.Equal
  have n1 : ∀ c, f.IsInf c → ¬ f.IsFinite c := fun c h h' => h' h.1
  have n2 : ∀ c, f.IsNaN c → ¬ f.IsFinite c := fun c h h' => h' h.1
  have n3 : ∀ c, f.IsNaN c → ¬ f.IsInf c := fun c h h' => h.2 h'.2
  rcases f.cases a with ha | ha | ha <;> rcases f.cases b with hb | hb | hb <;>
    simp [f.dec_finite, f.dec_inf, f.dec_nan, ha, hb, Datum.eq, f.not_inf_of_finite, n1, n2, n3]

end Verif.Ieee
