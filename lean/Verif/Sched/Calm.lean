import Verif.Sched.LpProps
import Mathlib.Tactic.Linarith
/-
Values whose only readers are operations with one operand are never buffered.
-/
namespace Verif.Sched

/-- The values in `S` are read only by operations with that one operand, whose results are again in `S`. -/
def Calm (P : Prog) (S : Nat → Prop) : Prop :=
  ∀ c ∈ channels P, S c.src → S c.tgt ∧ c.off = 0 ∧ ∀ c' ∈ channels P, c'.tgt = c.tgt → c' = c

/-- Readers of such values start as soon as they can, ASAP. -/
theorem asap_calm {P : Prog} (hP : WF P) {lat : Nat → Int} (hlat : LatOk P lat) {S : Nat → Prop} (hS : Calm P S) {c : Chan}
    (hc : c ∈ channels P) (h : S c.src) : (asap P lat).time c.tgt = (asap P lat).time c.src + lat c.src + c.off := by
  obtain ⟨-, h0, h1⟩ := hS c hc h
  have hm := asap_meets_dependencies hP lat
  obtain ⟨d1, d2⟩ := chan_dep hP hc
  have hd := hm.dep _ _ _ d1 d2
  rcases (asap_inv hP lat).tight c.tgt with h2 | ⟨c', hc', _, ht, he⟩
  · have := hm.nonneg c.src
    have := hlat.nonneg c.src
    omega
  · rw [h1 c' hc' ht] at he; exact he

open Classical in
/-- Start times with readers of `S` moved to where they can start. -/
noncomputable def settled (P : Prog) (lat : Nat → Int) (S : Nat → Prop) (T : Nat → ℚ) (n : Nat) : ℚ :=
  if h : ∃ c ∈ channels P, c.tgt = n ∧ S c.src ∧ c.src < n then settled P lat S T h.choose.src + (weight lat h.choose : ℚ) else T n
termination_by n
decreasing_by exact h.choose_spec.2.2.2

theorem settled_reader {P : Prog} (hP : WF P) {lat : Nat → Int} {S : Nat → Prop} (hS : Calm P S) (T : Nat → ℚ) {c : Chan}
    (hc : c ∈ channels P) (h : S c.src) : settled P lat S T c.tgt = settled P lat S T c.src + (weight lat c : ℚ) := by
  have hex : ∃ c' ∈ channels P, c'.tgt = c.tgt ∧ S c'.src ∧ c'.src < c.tgt := ⟨c, hc, rfl, h, (chan_lt hP hc).1⟩
  rw [settled, dif_pos hex]
  rw [(hS c hc h).2.2 _ hex.choose_spec.1 hex.choose_spec.2.1]

theorem settled_other {P : Prog} {lat : Nat → Int} {S : Nat → Prop} (T : Nat → ℚ) {n : Nat}
    (h : ∀ c ∈ channels P, c.tgt = n → ¬ S c.src) : settled P lat S T n = T n := by
  rw [settled, dif_neg]
  rintro ⟨c, hc, ht, hs, -⟩
  exact h c hc ht hs

/-- The same in an optimal answer of the linear program. -/
theorem lp_calm {P : Prog} (hP : WF P) {lat : Nat → Int} (hlat : LatOk P lat) {S : Nat → Prop} (hS : Calm P S) {x : Nat → ℚ}
    (hx : Optimal (lpBuild P lat) x) (hi : Integral (lpBuild P lat) x) {c : Chan} (hc : c ∈ channels P) (h : S c.src) :
    intTimes P lat x c.tgt = intTimes P lat x c.src + lat c.src + c.off := by
  obtain ⟨hf, hopt⟩ := hx
  obtain ⟨hr, hpt⟩ := hf.ratSchedule hP
  obtain ⟨d1, d2⟩ := chan_dep hP hc
  have hdep := (lp_schedule hP hf hi).dep _ _ _ d1 d2
  obtain ⟨n1, n2⟩ := chan_nodes hP hc
  generalize hT : startTimes P (lpBuild P lat) x = T at hr hpt
  have hTs : (intTimes P lat x c.src : ℚ) = T c.src := by rw [intTimes_cast hi n1, hT]
  have hTt : (intTimes P lat x c.tgt : ℚ) = T c.tgt := by rw [intTimes_cast hi n2, hT]
  by_contra hne
  have hlt : (weight lat c : ℚ) < T c.tgt - T c.src := by
    have : ((intTimes P lat x c.src + lat c.src + c.off : Int) : ℚ) < (intTimes P lat x c.tgt : ℚ) := by
      exact_mod_cast (show intTimes P lat x c.src + lat c.src + c.off < intTimes P lat x c.tgt by omega)
    unfold weight
    push_cast at this ⊢
    linarith
  have hw : ∀ c ∈ channels P, S c.src → (0 : ℚ) ≤ (weight lat c : ℚ) := by
    intro c hc h
    have h1 := (hS c hc h).2.1
    have h2 := hlat.nonneg c.src
    have : 0 ≤ weight lat c := by unfold weight; omega
    exact_mod_cast this
  set T' := settled P lat S T with hT'
  -- channels from values outside `S` keep both ends
  have hsame : ∀ c ∈ channels P, ¬ S c.src → T' c.tgt = T c.tgt ∧ T' c.src = T c.src := by
    intro c hc h
    refine ⟨settled_other T fun c' hc' ht hs => ?_, settled_other T fun c' hc' ht hs => ?_⟩
    · rw [(hS c' hc' hs).2.2 c hc ht.symm] at h; exact h hs
    · have := (hS c' hc' hs).1
      rw [ht] at this
      exact h this
  have hmove : ∀ c ∈ channels P, S c.src → T' c.tgt - T' c.src = (weight lat c : ℚ) := by
    intro c hc h
    have := settled_reader hP (lat := lat) hS T hc h
    rw [hT']; linarith
  have hnn : ∀ n, n ∈ nodesOf P → 0 ≤ T' n := by
    intro n
    induction n using Nat.strongRecOn with
    | _ n ih =>
      intro hn
      by_cases hex : ∃ c ∈ channels P, c.tgt = n ∧ S c.src
      · obtain ⟨c, hc, rfl, hs⟩ := hex
        have h1 := ih c.src (chan_lt hP hc).1 (chan_nodes hP hc).1
        have h2 := hmove c hc hs
        have h3 := hw c hc hs
        linarith
      · rw [hT', settled_other T fun c hc ht hs => hex ⟨c, hc, ht, hs⟩]
        exact hr.nonneg n hn
  have hR' : RatSchedule P lat T' := by
    refine ⟨hnn, ?_, ?_, ?_⟩
    · intro n hn hin
      rw [hT', settled_other T]
      · exact hr.input n hn hin
      · intro c hc ht _
        obtain ⟨_, h2⟩ := mem_channels.1 hc
        rw [ht] at h2
        unfold inChans at h2
        cases hd : P.defn n <;> rw [hd] at hin h2 <;> simp [Def.isInput] at hin <;> simp at h2
    · intro c hc
      by_cases hs : S c.src
      · rw [hmove c hc hs]
      · rw [(hsame c hc hs).1, (hsame c hc hs).2]; exact hr.lat c hc
    · intro c hc
      by_cases hs : S c.src
      · rw [hmove c hc hs]; exact hw c hc hs
      · rw [(hsame c hc hs).1, (hsame c hc hs).2]; exact hr.order c hc
  have hf' := hR'.feasible hP
  have h1 := hopt _ hf'
  rw [objective_eq hP hf, objective_eq hP hf'] at h1
  refine absurd h1 (not_le.2 ?_)
  refine List.sum_lt_sum _ _ ?_ ?_
  · intro c hc
    obtain ⟨g1, g2⟩ := chan_nodes hP hc
    rw [startTimes_pointOf lat _ g1, startTimes_pointOf lat _ g2, hT]
    by_cases hs : S c.src
    · rw [hmove c hc hs]; exact hr.lat c hc
    · rw [(hsame c hc hs).1, (hsame c hc hs).2]
  · refine ⟨c, hc, ?_⟩
    obtain ⟨g1, g2⟩ := chan_nodes hP hc
    rw [startTimes_pointOf lat _ g1, startTimes_pointOf lat _ g2, hT, hmove c hc h]; exact hlt

end Verif.Sched
