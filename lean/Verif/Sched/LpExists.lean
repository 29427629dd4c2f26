import Verif.Sched.LpProps
import Mathlib.Algebra.Order.Floor.Ring
import Mathlib.Algebra.BigOperators.Intervals
import Mathlib.Algebra.BigOperators.Ring.Finset
import Mathlib.Algebra.Order.BigOperators.Ring.Finset
import Mathlib.Tactic.FieldSimp
/-
Property C29, second part: the problem handed to the solver has an optimal extreme point, so the hypotheses under which
the other theorems speak about the solver's answer are met for every kernel; and its optimum is reached by whole numbers.
-/
namespace Verif.Sched
open Verif.Dfcxx (Fault)

/-- Sum of the start-time differences over the connections. -/
def cost (P : Prog) (T : Nat → ℚ) : ℚ := ((channels P).map fun c => T c.tgt - T c.src).sum

theorem cost_congr {P : Prog} (hP : WF P) {T S : Nat → ℚ} (h : ∀ n ∈ nodesOf P, T n = S n) : cost P T = cost P S := by
  unfold cost
  refine congrArg _ (List.map_congr_left fun c hc => ?_)
  obtain ⟨h1, h2⟩ := chan_nodes hP hc
  rw [h _ h1, h _ h2]

theorem cost_add (P : Prog) (T S : Nat → ℚ) : cost P (fun n => T n + S n) = cost P T + cost P S := by
  unfold cost
  rw [← List.sum_map_add]
  exact congrArg _ (List.map_congr_left fun c _ => by ring)

theorem cost_pointOf {P : Prog} (hP : WF P) {lat : Nat → Int} {T : Nat → ℚ} (h : RatSchedule P lat T) :
    objective (lpBuild P lat) (pointOf P lat T) = cost P T := by
  rw [objective_eq hP (h.feasible hP)]
  exact cost_congr hP fun n hn => startTimes_pointOf lat T hn

theorem RatSchedule.congr {P : Prog} (hP : WF P) {lat : Nat → Int} {T S : Nat → ℚ} (h : RatSchedule P lat T)
    (he : ∀ n ∈ nodesOf P, S n = T n) : RatSchedule P lat S := by
  refine ⟨fun n hn => by rw [he n hn]; exact h.nonneg n hn, fun n hn hi => by rw [he n hn]; exact h.input n hn hi, ?_, ?_⟩
  · intro c hc
    obtain ⟨h1, h2⟩ := chan_nodes hP hc
    rw [he _ h1, he _ h2]; exact h.lat c hc
  · intro c hc
    obtain ⟨h1, h2⟩ := chan_nodes hP hc
    rw [he _ h1, he _ h2]; exact h.order c hc

/-! ### Rounding -/

/-- Rounding down after a common shift smaller than one keeps every constraint. -/
theorem RatSchedule.round {P : Prog} {lat : Nat → Int} {T : Nat → ℚ} (h : RatSchedule P lat T) {θ : ℚ}
    (h0 : 0 ≤ θ) (h1 : θ < 1) : RatSchedule P lat (fun n => (⌊T n + θ⌋ : ℚ)) := by
  have key : ∀ (a b : ℚ) (z : Int), (z : ℚ) ≤ a - b → (z : ℚ) ≤ (⌊a + θ⌋ : ℚ) - (⌊b + θ⌋ : ℚ) := by
    intro a b z hz
    have : ⌊b + θ⌋ + z ≤ ⌊a + θ⌋ := by
      rw [Int.le_floor]
      push_cast
      have := Int.floor_le (b + θ)
      linarith
    have h2 : ((⌊b + θ⌋ + z : Int) : ℚ) ≤ (⌊a + θ⌋ : ℚ) := by exact_mod_cast this
    push_cast at h2
    linarith
  refine ⟨?_, ?_, ?_, ?_⟩
  · intro n hn
    have := h.nonneg n hn
    have : 0 ≤ ⌊T n + θ⌋ := Int.floor_nonneg.2 (by linarith)
    exact_mod_cast this
  · intro n hn hi
    have : ⌊T n + θ⌋ = 0 := by rw [h.input n hn hi, zero_add]; exact Int.floor_eq_zero_iff.2 ⟨h0, h1⟩
    simp only [this, Int.cast_zero]
  · intro c hc
    exact key _ _ _ (h.lat c hc)
  · intro c hc
    have := key (T c.tgt) (T c.src) 0 (by simpa using h.order c hc)
    simpa using this

/-- Hermite's identity at the multiples of `1/N`. -/
theorem sum_div_shift (N : Nat) (hN : 0 < N) (a : Int) : ∑ k ∈ Finset.range N, (a + k) / (N : Int) = a := by
  have hN' : (0 : Int) < N := by exact_mod_cast hN
  have step : ∀ b : Int, ∑ k ∈ Finset.range N, (b + 1 + k) / (N : Int) = ∑ k ∈ Finset.range N, (b + k) / (N : Int) + 1 := by
    intro b
    have h1 := Finset.sum_range_succ (fun k : Nat => (b + k) / (N : Int)) N
    have h2 := Finset.sum_range_succ' (fun k : Nat => (b + k) / (N : Int)) N
    rw [h1] at h2
    have h3 : (b + (N : Int)) / (N : Int) = b / N + 1 := Int.add_ediv_of_dvd_right (dvd_refl _) |>.trans (by rw [Int.ediv_self hN'.ne'])
    have h4 : ∑ k ∈ Finset.range N, (b + 1 + k) / (N : Int) = ∑ k ∈ Finset.range N, (b + ((k + 1 : Nat) : Int)) / (N : Int) := by
      refine Finset.sum_congr rfl fun k _ => ?_
      congr 1; push_cast; ring
    rw [h4]
    simp only [Nat.cast_zero, add_zero] at h2
    rw [h3] at h2
    linarith
  have zero : ∑ k ∈ Finset.range N, ((0 : Int) + k) / (N : Int) = 0 := by
    refine Finset.sum_eq_zero fun k hk => ?_
    rw [zero_add]
    exact Int.ediv_eq_zero_of_lt (by omega) (by have := Finset.mem_range.1 hk; omega)
  induction a using Int.induction_on with
  | zero => exact zero
  | succ i ih => rw [step, ih]
  | pred i ih =>
    have := step (-(i : Int) - 1)
    rw [show -(i : Int) - 1 + 1 = -(i : Int) by ring, ih] at this
    linarith

theorem floor_shift (N : Nat) (hN : 0 < N) (q : ℚ) (a : Int) (hq : q * N = a) :
    ∑ k ∈ Finset.range N, ((⌊q + k / N⌋ : Int) : ℚ) = q * N := by
  have hN' : (N : ℚ) ≠ 0 := by exact_mod_cast hN.ne'
  have : ∀ k : Nat, ⌊q + (k : ℚ) / N⌋ = (a + k) / (N : Int) := by
    intro k
    have : q + (k : ℚ) / N = ((a + k : Int) : ℚ) / ((N : Nat) : ℚ) := by
      push_cast
      rw [← hq]
      field_simp
    rw [this, Rat.floor_intCast_div_natCast]
  simp only [this]
  rw [← Int.cast_sum, sum_div_shift N hN a, hq]

/-- A common denominator of finitely many rationals. -/
theorem common_den (T : Nat → ℚ) (l : List Nat) : ∃ N : Nat, 0 < N ∧ ∀ n ∈ l, ∃ a : Int, T n * N = a := by
  induction l with
  | nil => exact ⟨1, one_pos, by simp⟩
  | cons m l ih =>
    obtain ⟨N, hN, h⟩ := ih
    refine ⟨(T m).den * N, Nat.mul_pos (T m).den_pos hN, ?_⟩
    intro n hn
    rcases List.mem_cons.1 hn with rfl | hn
    · refine ⟨(T n).num * N, ?_⟩
      push_cast
      rw [← mul_assoc, Rat.mul_den_eq_num]
    · obtain ⟨a, ha⟩ := h n hn
      refine ⟨a * (T m).den, ?_⟩
      push_cast
      rw [← ha]; ring

theorem cost_sum (P : Prog) (N : Nat) (S : Nat → Nat → ℚ) :
    ∑ k ∈ Finset.range N, cost P (S k) = cost P (fun n => ∑ k ∈ Finset.range N, S k n) := by
  induction N with
  | zero => simp [cost]
  | succ N ih =>
    rw [Finset.sum_range_succ, ih, ← cost_add]
    refine congrArg _ (funext fun n => ?_)
    rw [Finset.sum_range_succ]

theorem cost_smul (P : Prog) (T : Nat → ℚ) (a : ℚ) : cost P (fun n => T n * a) = cost P T * a := by
  unfold cost
  rw [← List.sum_map_mul_right]
  exact congrArg _ (List.map_congr_left fun c _ => by ring)

/-- The average cost of the roundings is the cost. -/
theorem average {P : Prog} (hP : WF P) (T : Nat → ℚ) : ∃ N : Nat, 0 < N ∧
    ∑ k ∈ Finset.range N, cost P (fun n => (⌊T n + (k : ℚ) / N⌋ : ℚ)) = cost P T * N := by
  obtain ⟨N, hN, h⟩ := common_den T (nodesOf P)
  refine ⟨N, hN, ?_⟩
  rw [cost_sum, ← cost_smul]
  refine cost_congr hP fun n hn => ?_
  obtain ⟨a, ha⟩ := h n hn
  exact floor_shift N hN _ a ha

theorem shift_range {N k : Nat} (hN : 0 < N) (hk : k < N) : (0 : ℚ) ≤ (k : ℚ) / N ∧ (k : ℚ) / N < 1 := by
  have : (0 : ℚ) < N := by exact_mod_cast hN
  exact ⟨by positivity, by rw [div_lt_one this]; exact_mod_cast hk⟩

/-! ### The best schedule of whole numbers -/

/-- Whole-number start times meeting the constraints. -/
def IntSchedule (P : Prog) (lat : Nat → Int) (Z : Nat → Int) : Prop := RatSchedule P lat (fun n => (Z n : ℚ))

def icost (P : Prog) (Z : Nat → Int) : Int := ((channels P).map fun c => Z c.tgt - Z c.src).sum

theorem icost_cast (P : Prog) (Z : Nat → Int) : (icost P Z : ℚ) = cost P (fun n => (Z n : ℚ)) := by
  unfold icost cost
  induction channels P with
  | nil => simp
  | cons c l ih => rw [List.map_cons, List.sum_cons, Int.cast_add, ih]; simp

/-- A non-empty property of non-negative whole numbers has a least one. -/
theorem exists_least {α : Type} (p : α → Prop) (f : α → Int) (h0 : ∀ a, p a → 0 ≤ f a) (he : ∃ a, p a) :
    ∃ a, p a ∧ ∀ b, p b → f a ≤ f b := by
  classical
  have hex : ∃ n : Nat, ∃ a, p a ∧ (f a).toNat = n := by obtain ⟨a, ha⟩ := he; exact ⟨_, a, ha, rfl⟩
  obtain ⟨a, ha, hn⟩ := Nat.find_spec hex
  refine ⟨a, ha, fun b hb => ?_⟩
  have := Nat.find_min' hex ⟨b, hb, rfl⟩
  have h1 := h0 a ha
  have h2 := h0 b hb
  omega

theorem RatSchedule.cost_nonneg {P : Prog} {lat : Nat → Int} {T : Nat → ℚ} (h : RatSchedule P lat T) : 0 ≤ cost P T := by
  refine List.sum_nonneg fun q hq => ?_
  obtain ⟨c, hc, rfl⟩ := List.mem_map.1 hq
  exact h.order c hc

theorem exists_intSchedule {P : Prog} (hP : WF P) (lat : Nat → Int) : ∃ Z, IntSchedule P lat Z := by
  obtain ⟨⟨x, hx, hi⟩, -⟩ := lp_satisfiable hP lat
  exact ⟨intTimes P lat x, (hx.ratSchedule hP).1.congr hP fun n hn => intTimes_cast hi hn⟩

/-- The least cost of whole-number schedules is a lower bound for all schedules, and the roundings of a cheapest schedule are cheapest. -/
theorem least_cost {P : Prog} (hP : WF P) {lat : Nat → Int} {m : Int} (hm : ∀ Z, IntSchedule P lat Z → m ≤ icost P Z) {T : Nat → ℚ}
    (h : RatSchedule P lat T) :
    (m : ℚ) ≤ cost P T ∧ (cost P T = m → cost P (fun n => (⌊T n⌋ : ℚ)) = m) := by
  obtain ⟨N, hN, hsum⟩ := average hP T
  have hN' : (0 : ℚ) < N := by exact_mod_cast hN
  have hk : ∀ k ∈ Finset.range N, (m : ℚ) ≤ cost P (fun n => (⌊T n + (k : ℚ) / N⌋ : ℚ)) := by
    intro k hk
    obtain ⟨h1, h2⟩ := shift_range hN (Finset.mem_range.1 hk)
    rw [← icost_cast P (fun n => ⌊T n + (k : ℚ) / N⌋)]
    exact_mod_cast hm _ (h.round h1 h2)
  have hle : (m : ℚ) ≤ cost P T := by
    have := Finset.sum_le_sum hk
    rw [hsum, Finset.sum_const, Finset.card_range, nsmul_eq_mul] at this
    nlinarith
  refine ⟨hle, fun he => ?_⟩
  have hall : ∀ k ∈ Finset.range N, (m : ℚ) = cost P (fun n => (⌊T n + (k : ℚ) / N⌋ : ℚ)) := by
    refine (Finset.sum_eq_sum_iff_of_le hk).1 ?_
    rw [hsum, Finset.sum_const, Finset.card_range, nsmul_eq_mul, he]; ring
  have := hall 0 (Finset.mem_range.2 hN)
  simp only [Nat.cast_zero, zero_div, add_zero] at this
  exact this.symm

/-- Pointwise minimum of two schedules. -/
theorem RatSchedule.inf {P : Prog} {lat : Nat → Int} {T S : Nat → ℚ} (h : RatSchedule P lat T) (h' : RatSchedule P lat S) :
    RatSchedule P lat (fun n => min (T n) (S n)) ∧ RatSchedule P lat (fun n => max (T n) (S n)) := by
  have kmin : ∀ a b a' b' z : ℚ, z ≤ a - b → z ≤ a' - b' → z ≤ min a a' - min b b' := by
    intro a b a' b' z h1 h2
    have := min_le_left b b'; have := min_le_right b b'
    rcases min_choice a a' with h | h <;> rw [h] <;> linarith
  have kmax : ∀ a b a' b' z : ℚ, z ≤ a - b → z ≤ a' - b' → z ≤ max a a' - max b b' := by
    intro a b a' b' z h1 h2
    have := le_max_left a a'; have := le_max_right a a'
    rcases max_choice b b' with h | h <;> rw [h] <;> linarith
  refine ⟨⟨?_, ?_, ?_, ?_⟩, ⟨?_, ?_, ?_, ?_⟩⟩
  · intro n hn; exact le_min (h.nonneg n hn) (h'.nonneg n hn)
  · intro n hn hi; simp only [h.input n hn hi, h'.input n hn hi, min_self]
  · intro c hc; exact kmin _ _ _ _ _ (h.lat c hc) (h'.lat c hc)
  · intro c hc; exact kmin _ _ _ _ _ (h.order c hc) (h'.order c hc)
  · intro n hn; exact le_max_of_le_left (h.nonneg n hn)
  · intro n hn hi; simp only [h.input n hn hi, h'.input n hn hi, max_self]
  · intro c hc; exact kmax _ _ _ _ _ (h.lat c hc) (h'.lat c hc)
  · intro c hc; exact kmax _ _ _ _ _ (h.order c hc) (h'.order c hc)

theorem sum_lt_of_le {l : List Nat} {f g : Nat → ℚ} (hle : ∀ n ∈ l, f n ≤ g n) {m : Nat} (hm : m ∈ l) (hlt : f m < g m) :
    (l.map f).sum < (l.map g).sum := by
  induction l with
  | nil => cases hm
  | cons a l ih =>
    simp only [List.map_cons, List.sum_cons]
    have htail : (l.map f).sum ≤ (l.map g).sum := List.sum_le_sum fun n hn => hle n (List.mem_cons_of_mem _ hn)
    rcases List.mem_cons.1 hm with rfl | hm
    · linarith
    · have := ih (fun n hn => hle n (List.mem_cons_of_mem _ hn)) hm
      have := hle a (by simp)
      linarith

theorem sum_cast (l : List Nat) (Z : Nat → Int) : (((l.map Z).sum : Int) : ℚ) = (l.map fun n => (Z n : ℚ)).sum := by
  induction l with
  | nil => simp
  | cons a l ih => rw [List.map_cons, List.sum_cons, Int.cast_add, ih]; simp

/-- **C29, existence.**  For every well-formed kernel and latency assignment the problem handed to the solver has an optimal
extreme point: an answer of the kind the simplex method gives exists, its columns are whole numbers, and no choice of start times
satisfying the constraints has a smaller sum of differences. -/
theorem lp_has_optimal_vertex {P : Prog} (hP : WF P) (lat : Nat → Int) :
    ∃ x, Optimal (lpBuild P lat) x ∧ Extreme (lpBuild P lat) x ∧ Integral (lpBuild P lat) x := by
  obtain ⟨Z0, hZ0, hmin⟩ := exists_least (IntSchedule P lat) (icost P)
    (fun Z hZ => by have := hZ.cost_nonneg; rw [← icost_cast] at this; exact_mod_cast this) (exists_intSchedule hP lat)
  obtain ⟨Z, ⟨hZ, hZc⟩, htot⟩ := exists_least (fun Z => IntSchedule P lat Z ∧ icost P Z = icost P Z0)
    (fun Z => ((nodesOf P).map Z).sum)
    (fun Z hZ => List.sum_nonneg fun q hq => by
      obtain ⟨n, hn, rfl⟩ := List.mem_map.1 hq
      have := hZ.1.nonneg n hn
      exact_mod_cast this) ⟨Z0, hZ0, rfl⟩
  have hf := RatSchedule.feasible hP hZ
  have hobj : objective (lpBuild P lat) (pointOf P lat fun n => (Z n : ℚ)) = (icost P Z0 : ℚ) := by
    rw [cost_pointOf hP hZ, ← icost_cast, hZc]
  have hlow : ∀ y, Feasible (lpBuild P lat) y → (icost P Z0 : ℚ) ≤ objective (lpBuild P lat) y := by
    intro y hy
    rw [objective_eq hP hy]
    exact (least_cost hP hmin (hy.ratSchedule hP).1).1
  have hopt : Optimal (lpBuild P lat) (pointOf P lat fun n => (Z n : ℚ)) := ⟨hf, fun y hy => by rw [hobj]; exact hlow y hy⟩
  have hext : Extreme (lpBuild P lat) (pointOf P lat fun n => (Z n : ℚ)) := by
    refine ⟨hf, fun y z hy hz hmid => ?_⟩
    obtain ⟨ry, py⟩ := hy.ratSchedule hP
    obtain ⟨rz, pz⟩ := hz.ratSchedule hP
    generalize hTy : startTimes P (lpBuild P lat) y = Y at ry py
    generalize hTz : startTimes P (lpBuild P lat) z = W at rz pz
    have hmidn : ∀ n ∈ nodesOf P, (Z n : ℚ) = (Y n + W n) / 2 := by
      intro n hn
      rw [← pointOf_node lat (fun n => (Z n : ℚ)) hn, ← hTy, ← hTz, startTimes_node _ _ hn, startTimes_node _ _ hn]
      obtain ⟨i, _, h2, h3⟩ := nodeMap_range lat hn
      have hcol := (lpBuild_shape P lat).2.1
      exact hmid _ (by omega) (by omega)
    obtain ⟨rmin, rmax⟩ := ry.inf rz
    -- the minimum of the two is optimal too
    have hcmin : cost P (fun n => min (Y n) (W n)) = (icost P Z0 : ℚ) := by
      have h1 := (least_cost hP hmin rmin).1
      have h2 := (least_cost hP hmin rmax).1
      have h3 := cost_add P (fun n => min (Y n) (W n)) (fun n => max (Y n) (W n))
      have h4 : cost P (fun n => min (Y n) (W n) + max (Y n) (W n)) = cost P (fun n => (Z n : ℚ) * 2) :=
        cost_congr hP fun n hn => by rw [min_add_max, hmidn n hn]; ring
      rw [h4, cost_smul, ← icost_cast, hZc] at h3
      linarith
    have hfl := (least_cost hP hmin rmin).2 hcmin
    have hrf := rmin.round (θ := 0) le_rfl (by norm_num)
    simp only [add_zero] at hrf
    have hle := htot (fun n => ⌊min (Y n) (W n)⌋) ⟨hrf, by
      have := (icost_cast P (fun n => ⌊min (Y n) (W n)⌋)).trans hfl
      exact_mod_cast this⟩
    have hle' : (((nodesOf P).map Z).sum : ℚ) ≤ (((nodesOf P).map fun n => ⌊min (Y n) (W n)⌋).sum : Int) := by exact_mod_cast hle
    rw [sum_cast, sum_cast] at hle'
    have heq : ∀ n ∈ nodesOf P, Y n = (Z n : ℚ) := by
      intro n hn
      by_contra hne
      have hcomp : ∀ k ∈ nodesOf P, ((⌊min (Y k) (W k)⌋ : Int) : ℚ) ≤ (Z k : ℚ) := by
        intro k hk
        have h1 := Int.floor_le (min (Y k) (W k))
        have h2 := hmidn k hk
        have h3 := min_le_left (Y k) (W k)
        have h4 := min_le_right (Y k) (W k)
        linarith
      have hstrict : ((⌊min (Y n) (W n)⌋ : Int) : ℚ) < (Z n : ℚ) := by
        have h1 := Int.floor_le (min (Y n) (W n))
        have h2 := hmidn n hn
        have h3 := min_le_left (Y n) (W n)
        have h4 := min_le_right (Y n) (W n)
        rcases lt_or_gt_of_ne hne with h | h <;> linarith
      exact absurd hle' (not_le.2 (sum_lt_of_le hcomp hn hstrict))
    intro v h1 h2
    rw [py v h1 h2]
    rcases column_cases P lat h1 h2 with ⟨n, hn', rfl⟩ | ⟨i, c, hc, rfl⟩ | ⟨i, c, hc, rfl⟩
    · rw [pointOf_node _ _ hn', pointOf_node _ _ hn', heq n hn']
    · obtain ⟨g1, g2⟩ := chan_nodes hP (List.mem_of_getElem? hc)
      rw [pointOf_delta _ _ hc, pointOf_delta _ _ hc, heq _ g1, heq _ g2]
    · obtain ⟨g1, g2⟩ := chan_nodes hP (List.mem_of_getElem? hc)
      rw [pointOf_buf _ _ hc, pointOf_buf _ _ hc, heq _ g1, heq _ g2]
  exact ⟨_, hopt, hext, lp_vertex_integral hP hext⟩

end Verif.Sched
