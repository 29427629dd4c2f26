import Verif.Ieee.Ops
/-
The specification of rounding leaves no choice.
-/
namespace Verif.Ieee
variable (f : Fmt)

theorem Fmt.value_sub {b : Nat} {q : ℚ} (h : q ≠ 0) (hn : f.neg b = decide (q < 0)) : |f.value b - q| = abs (f.mag (f.low b) - |q| ) := by
  have : f.value b - q = (if q < 0 then -1 else 1) * (f.mag (f.low b) - |q|) := by
    rw [f.value_mag, hn]
    by_cases hq : q < 0
    · simp only [hq, decide_true, if_true]; rw [abs_of_neg hq]; ring
    · simp only [hq, decide_false, if_false, Bool.false_eq_true]; rw [abs_of_nonneg (not_lt.1 hq)]; ring
  rw [this, abs_mul]; split_ifs <;> simp

theorem Fmt.low_parity (b : Nat) : f.low b % 2 = b % 2 := by
  unfold Fmt.low
  have : 2 ∣ 2 ^ (f.p + f.w) := dvd_pow_self 2 (by have := f.p_pos; omega)
  exact Nat.mod_mod_of_dvd b this

/-- A number has one rounding. -/
theorem Fmt.is_unique {b : Nat} (hb : b < 2 ^ (f.p + f.w + 1)) {q : ℚ} {s : Bool} (h : f.Is b q s) : b = f.enc (.num s q) := by
  have hc := f.enc_num s q
  have hl := f.low_num s q
  have hr := f.round_spec (abs_nonneg q)
  -- bits from sign and fields
  have bits : ∀ c, c < 2 ^ (f.p + f.w + 1) → c = f.sgn (f.neg c) + f.low c := by
    intro c hc
    have hT := Nat.two_pow_pos (f.p + f.w)
    have h1 := Nat.div_add_mod c (2 ^ (f.p + f.w))
    have h2 : c / 2 ^ (f.p + f.w) < 2 := by rw [Nat.div_lt_iff_lt_mul hT, ← Nat.pow_succ']; exact hc
    have h01 : c / 2 ^ (f.p + f.w) = 0 ∨ c / 2 ^ (f.p + f.w) = 1 := by
      generalize c / 2 ^ (f.p + f.w) = x at h2; omega
    unfold Fmt.neg Fmt.low Fmt.sgn
    rcases h01 with h | h <;> rw [h] at h1 ⊢
    · simp; omega
    · simp; omega
  have hneg : f.neg b = if q = 0 then s else decide (q < 0) := by
    split
    · exact h.zero ‹_›
    · exact h.rounds.sign ‹_›
  have key : f.low b = f.round |q| := by
    rcases le_or_gt f.overflow |q| with ho | ho
    · rw [(f.isInf_iff _).1 (h.rounds.inf ho), ← hl, (f.isInf_iff _).1 (hc.rounds.inf ho)]
    · have fb := h.rounds.finite ho
      have fc := hc.rounds.finite ho
      have hmid := f.overflow_mid
      have hmt := f.mag_mono (show f.top - 1 < f.top by have := f.top_pos; omega)
      have hr := hr.2.2 (by linarith)
      by_cases h0 : q = 0
      · have h1 := h.rounds.nearest ho _ fc
        have h2 := f.abs_value (f.enc (.num s q))
        rw [hl, h0, abs_zero, f.round_zero, f.mag_zero] at h2
        rw [h0, sub_zero, sub_zero, ← h0, h0, h2, f.abs_value] at h1
        rw [h0, abs_zero, f.round_zero]
        by_contra hne
        have := f.mag_mono (Nat.pos_of_ne_zero hne)
        rw [f.mag_zero] at this
        linarith
      · have db := f.value_sub h0 (h.rounds.sign h0)
        have dc := f.value_sub h0 (hc.rounds.sign h0)
        have near := h.rounds.nearest ho _ fc
        rw [db, dc, hl] at near
        have near' := (hr (f.low b)).1
        have eq := le_antisymm near near'
        by_contra hne
        have e1 := (hr (f.low b)).2 hne eq
        have hv : f.value (f.enc (.num s q)) ≠ f.value b := by
          intro e
          have h3 := f.abs_value (f.enc (.num s q))
          rw [e, f.abs_value, hl] at h3
          exact hne (f.mag_mono.injective h3)
        have e2 := h.rounds.even ho _ fc hv (by rw [db, dc, hl, eq])
        rw [← f.low_parity] at e2
        rcases Nat.lt_or_gt_of_ne hne with hlt | hlt
        · have m1 := f.mag_mono (show f.low b < f.low b + 1 by omega)
          have m2 := f.mag_mono (show f.low b + 1 < f.round |q| by omega)
          have h3 := (hr (f.low b + 1)).1
          rcases abs_cases (f.mag (f.low b) - |q|) with ⟨a1, a2⟩ | ⟨a1, a2⟩ <;>
            rcases abs_cases (f.mag (f.round |q|) - |q|) with ⟨b1, b2⟩ | ⟨b1, b2⟩ <;>
            rcases abs_cases (f.mag (f.low b + 1) - |q|) with ⟨c1, c2⟩ | ⟨c1, c2⟩ <;> linarith
        · have m1 := f.mag_mono (show f.round |q| < f.round |q| + 1 by omega)
          have m2 := f.mag_mono (show f.round |q| + 1 < f.low b by omega)
          have h3 := (hr (f.round |q| + 1)).1
          rcases abs_cases (f.mag (f.low b) - |q|) with ⟨a1, a2⟩ | ⟨a1, a2⟩ <;>
            rcases abs_cases (f.mag (f.round |q|) - |q|) with ⟨b1, b2⟩ | ⟨b1, b2⟩ <;>
            rcases abs_cases (f.mag (f.round |q| + 1) - |q|) with ⟨c1, c2⟩ | ⟨c1, c2⟩ <;> linarith
  rw [bits b hb, hneg, key]
  rfl

end Verif.Ieee
