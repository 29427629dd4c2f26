import Verif.Sched.LpExists
/-
C83: how much the linear scheduler buffers.  It minimises the sum of the differences of start times over all channels
(/repo/src/model/dfcir/lib/dfcir/passes/DFCIRLinearSchedulerPass.cpp:118-134), under the constraints of lines 43-102; buffers are then inserted only on
channels that do not come from constants or scalar inputs (line 148).
-/
namespace Verif.Sched
open Verif.Dfcxx (Fault)

/-! ### Specification -/

/-- Stages of buffering inserted. -/
def total (bs : List (Chan × Int)) : Int := (bs.map Prod.snd).sum

/-- No operation starts before an operation it reads. -/
def Ordered (P : Prog) (T : Nat → Int) : Prop := ∀ c ∈ channels P, T c.src ≤ T c.tgt

/-- No scalar inputs, and every constant is read once. -/
structure SoleConstants (P : Prog) : Prop where
  scalars : ∀ n < P.size, P.defn n ≠ .scalar
  once : ∀ (i j : Nat) (c d : Chan), (channels P)[i]? = some c → (channels P)[j]? = some d → c.src = d.src → P.defn c.src = .const → i = j

/-! ### Proofs -/

/-- What a channel asks for. -/
def slack (lat T : Nat → Int) (c : Chan) : Int := T c.tgt - (T c.src + lat c.src + c.off)

theorem total_buffersFor (P : Prog) (lat T : Nat → Int) :
    total (buffersFor P lat T) = ((channels P).map fun c => if (P.defn c.src).isConstantInput then 0 else slack lat T c).sum := by
  unfold total buffersFor
  induction channels P with
  | nil => rfl
  | cons c cs ih =>
    rw [List.map_cons, List.sum_cons, ← ih, List.filterMap_cons]
    by_cases hc : (P.defn c.src).isConstantInput
    · rw [if_neg (by simp [hc])]
      simp [hc]
    · by_cases hd : T c.tgt - (T c.src + lat c.src + c.off) = 0
      · rw [if_neg (by simp [hd])]
        simp [slack, hd]
      · rw [if_pos ⟨hd, by simpa using hc⟩]
        simp [slack, hc]

theorem sum_le_getElem {α : Type} {f g : α → ℚ} {l : List α} (h : ∀ a ∈ l, f a ≤ g a) : (l.map f).sum ≤ (l.map g).sum :=
  List.sum_le_sum h

/-- Constants moved next to their reader. -/
noncomputable def late (P : Prog) (lat T : Nat → Int) (n : Nat) : Int := open Classical in
  if h : P.defn n = .const ∧ ∃ c ∈ channels P, c.src = n then
    T (Classical.choose h.2).tgt - max 0 (weight lat (Classical.choose h.2)) else T n

theorem late_src {P : Prog} {lat T : Nat → Int} (hs : SoleConstants P) {c : Chan} (hc : c ∈ channels P) (hd : P.defn c.src = .const) :
    late P lat T c.src = T c.tgt - max 0 (weight lat c) := by
  have h : P.defn c.src = .const ∧ ∃ d ∈ channels P, d.src = c.src := ⟨hd, c, hc, rfl⟩
  unfold late
  rw [dif_pos h]
  obtain ⟨h1, h2⟩ := Classical.choose_spec h.2
  obtain ⟨i, hi⟩ := List.getElem?_of_mem h1
  obtain ⟨j, hj⟩ := List.getElem?_of_mem hc
  have e := hs.once j i _ _ hj hi h2.symm hd
  subst e
  rw [hi] at hj
  rw [Option.some.inj hj]

theorem late_other {P : Prog} {lat T : Nat → Int} {n : Nat} (hd : P.defn n ≠ .const) : late P lat T n = T n := by
  unfold late
  rw [dif_neg (fun h => hd h.1)]

theorem chan_tgt_ne_const {P : Prog} {c : Chan} (hc : c ∈ channels P) : P.defn c.tgt ≠ .const := by
  obtain ⟨_, h2⟩ := mem_channels.1 hc
  intro h
  unfold inChans at h2
  rw [h] at h2
  cases h2

theorem chan_tgt_ne_input {P : Prog} {c : Chan} (hc : c ∈ channels P) : (P.defn c.tgt).isInput = false := by
  obtain ⟨_, h2⟩ := mem_channels.1 hc
  unfold inChans at h2
  split at h2
  · rename_i h; rw [h]; rfl
  · rename_i h; rw [h]; rfl
  · cases h2

section
variable {P : Prog} {lat : Nat → Int}

/-- A schedule in which no operation starts before those it reads is a feasible point, also with the constants moved. -/
theorem late_ratSchedule (hP : WF P) (hs : SoleConstants P) {T : Nat → Int} (hT : Schedule P lat T) (ho : Ordered P T) :
    RatSchedule P lat fun n => (late P lat T n : ℚ) := by
  have hdep : ∀ c ∈ channels P, T c.src + lat c.src + c.off ≤ T c.tgt := fun c hc => hT.dep _ _ _ (chan_dep hP hc).1 (chan_dep hP hc).2
  have h0 : ∀ n, 0 ≤ late P lat T n := by
    intro n
    by_cases h : P.defn n = .const ∧ ∃ c ∈ channels P, c.src = n
    · obtain ⟨hd, c, hc, rfl⟩ := h
      rw [late_src hs hc hd]
      have h1 := hdep c hc
      have h2 := ho c hc
      have h3 := hT.nonneg c.src
      unfold weight
      omega
    · unfold late
      rw [dif_neg h]
      exact hT.nonneg n
  have hz : ∀ c ∈ channels P, max 0 (weight lat c) ≤ late P lat T c.tgt - late P lat T c.src := by
    intro c hc
    rw [late_other (chan_tgt_ne_const hc)]
    by_cases hd : P.defn c.src = .const
    · rw [late_src hs hc hd]; omega
    · rw [late_other hd]
      have h1 := hdep c hc
      have h2 := ho c hc
      unfold weight
      omega
  refine ⟨fun n _ => by exact_mod_cast h0 n, ?_, ?_, ?_⟩
  · intro n hn hi
    obtain ⟨h1, h2⟩ := mem_nodesOf.1 hn
    have hd : P.defn n ≠ .const := by intro h; rw [h] at hi; cases hi
    have hst : P.defn n = .stream := by
      have := hs.scalars n h1
      cases h : P.defn n <;> rw [h] at hi this <;> simp_all [Def.isInput]
    rw [late_other hd, hT.input n h1 hst]; rfl
  · intro c hc
    have := hz c hc
    have h2 : weight lat c ≤ late P lat T c.tgt - late P lat T c.src := by omega
    exact_mod_cast h2
  · intro c hc
    have := hz c hc
    have h2 : 0 ≤ late P lat T c.tgt - late P lat T c.src := by omega
    exact_mod_cast h2

/-- **C83, the part that holds.**  In a kernel without scalar inputs whose constants are each read once, the linear scheduler inserts as few stages of
buffering as any correct schedule in which no operation starts before those it reads. -/
theorem lp_least_partial (hP : WF P) (hs : SoleConstants P) {x : Nat → ℚ} (hx : Optimal (lpBuild P lat) x) (hi : Integral (lpBuild P lat) x)
    {T : Nat → Int} (hT : Schedule P lat T) (ho : Ordered P T) :
    total (lpBuffers P (lpBuild P lat) (.solved x)) ≤ total (buffersFor P lat T) := by
  rw [lpBuffers_eq hP hx.1 hi, total_buffersFor, total_buffersFor]
  have hr := late_ratSchedule hP hs hT ho
  obtain ⟨hrx, -⟩ := hx.1.ratSchedule hP
  have h1 := hx.2 _ (hr.feasible hP)
  rw [cost_pointOf hP hr, objective_eq hP hx.1] at h1
  unfold cost at h1
  -- per channel: what is inserted, in terms of the differences of start times
  have hcast : ∀ l : List Chan, ∀ f : Chan → Int, (((l.map f).sum : Int) : ℚ) = (l.map fun c => (f c : ℚ)).sum := by
    intro l f
    induction l with
    | nil => simp
    | cons a l ih => rw [List.map_cons, List.sum_cons, Int.cast_add, ih, List.map_cons, List.sum_cons]
  have hA : (((channels P).map fun c => if (P.defn c.src).isConstantInput then 0 else slack lat (intTimes P lat x) c).sum : ℤ) +
      ((channels P).map fun c => (if (P.defn c.src).isConstantInput then ((max 0 (weight lat c) : Int) : ℚ) else (weight lat c : ℚ))).sum ≤
      ((channels P).map fun c => startTimes P (lpBuild P lat) x c.tgt - startTimes P (lpBuild P lat) x c.src).sum := by
    rw [hcast, ← List.sum_map_add]
    refine sum_le_getElem fun c hc => ?_
    obtain ⟨n1, n2⟩ := chan_nodes hP hc
    split
    · have g1 := hrx.lat c hc
      have g2 := hrx.order c hc
      push_cast
      rw [zero_add]
      exact max_le g2 g1
    · have e : ((slack lat (intTimes P lat x) c : Int) : ℚ) =
          startTimes P (lpBuild P lat) x c.tgt - startTimes P (lpBuild P lat) x c.src - weight lat c := by
        unfold slack weight
        push_cast
        rw [intTimes_cast hi n1, intTimes_cast hi n2]
        ring
      rw [e]
      linarith
  have hB : ((channels P).map fun c => (late P lat T c.tgt : ℚ) - late P lat T c.src).sum =
      (((channels P).map fun c => if (P.defn c.src).isConstantInput then 0 else slack lat T c).sum : ℤ) +
      ((channels P).map fun c => (if (P.defn c.src).isConstantInput then ((max 0 (weight lat c) : Int) : ℚ) else (weight lat c : ℚ))).sum := by
    rw [hcast, ← List.sum_map_add]
    refine congrArg _ (List.map_congr_left fun c hc => ?_)
    rw [late_other (chan_tgt_ne_const hc)]
    have hlt := chan_lt hP hc
    have hsc := hs.scalars c.src (by omega)
    split
    · rename_i hk
      have hd : P.defn c.src = .const := by
        cases h : P.defn c.src <;> rw [h] at hk hsc <;> simp_all [Def.isConstantInput]
      rw [late_src hs hc hd]
      push_cast; ring
    · rename_i hk
      have hd : P.defn c.src ≠ .const := by intro h; rw [h] at hk; exact hk rfl
      rw [late_other hd]
      unfold slack weight
      push_cast; ring
  rw [hB] at h1
  have h2 := hA.trans h1
  have h3 := le_of_add_le_add_right h2
  exact_mod_cast h3

/-- ... in particular as few as the ASAP scheduler, if no operand lies further in the past than its operation takes. -/
theorem lp_not_more_than_asap_partial (hP : WF P) (hs : SoleConstants P) (hw : ∀ c ∈ channels P, 0 ≤ lat c.src + c.off) {x : Nat → ℚ}
    (hx : Optimal (lpBuild P lat) x) (hi : Integral (lpBuild P lat) x) :
    total (lpBuffers P (lpBuild P lat) (.solved x)) ≤ total (buffersFor P lat (asap P lat).time) := by
  have hT := asap_meets_dependencies hP lat
  refine lp_least_partial hP hs hx hi hT fun c hc => ?_
  have h1 := hT.dep _ _ _ (chan_dep hP hc).1 (chan_dep hP hc).2
  have h2 := hw c hc
  omega

end

/-! ### Kernels for which it is not so -/

/-- `out1 = x + c; y = f(x); out2 = y + c; out3 = y + c` with one constant `c` (equal constants are one node, C05); `f` takes five cycles. -/
def sharedP : Prog := ⟨9, fun v => match v with
  | 0 => .stream
  | 1 => .const
  | 2 => .node [0, 1]
  | 3 => .output (some 2)
  | 4 => .node [0]
  | 5 => .node [4, 1]
  | 6 => .node [4, 1]
  | 7 => .output (some 5)
  | 8 => .output (some 6)
  | _ => .erased⟩

def sharedLat (v : Nat) : Int := if v = 4 then 5 else 0

theorem sharedP_wf : WF sharedP := by
  refine ⟨by decide, ?_, ?_⟩
  · intro i hi
    match i, hi with
    | 0, _ | 1, _ | 2, _ | 3, _ | 4, _ | 5, _ | 6, _ | 7, _ | 8, _ => exact ⟨(fun _ _ h => by cases h), (fun h => by cases h)⟩
    | i + 9, hi => exact absurd hi (by simp [sharedP])
  · intro i hi s k h
    match i, hi, h with
    | i + 9, hi, _ => exact absurd hi (by simp [sharedP])

theorem sharedP_channels : channels sharedP = [⟨0, 2, 0, 0⟩, ⟨1, 2, 1, 0⟩, ⟨2, 3, -1, 0⟩, ⟨0, 4, 0, 0⟩, ⟨4, 5, 0, 0⟩, ⟨1, 5, 1, 0⟩, ⟨4, 6, 0, 0⟩, ⟨1, 6, 1, 0⟩,
    ⟨5, 7, -1, 0⟩, ⟨6, 8, -1, 0⟩] := by decide

/-- The schedule that is best for the objective: everything but `f` at time 5. -/
def sharedBest (n : Nat) : ℚ := if n = 0 ∨ n = 4 then 0 else 5

theorem sharedBest_ok : RatSchedule sharedP sharedLat sharedBest := by
  refine ⟨fun n _ => by unfold sharedBest; split <;> norm_num, ?_, ?_, ?_⟩
  · intro n hn hi
    obtain ⟨h1, h2⟩ := mem_nodesOf.1 hn
    match n, h1, hi with
    | 0, _, _ => rfl
    | i + 9, hi, _ => exact absurd hi (by simp [sharedP])
  · rw [sharedP_channels]; simp [weight, sharedLat, sharedBest]
  · rw [sharedP_channels]; simp [sharedBest]

/-- **C83, false in general: shared constants.**  Here the ASAP scheduler inserts no buffer at all, the linear scheduler five stages: it counts
distances from the shared constant, which costs nothing, and delays the addition for its sake. -/
theorem lp_inserts_more {x : Nat → ℚ} (hx : Optimal (lpBuild sharedP sharedLat) x) (hi : Integral (lpBuild sharedP sharedLat) x) :
    total (lpBuffers sharedP (lpBuild sharedP sharedLat) (.solved x)) = 5 ∧ buffersFor sharedP sharedLat (asap sharedP sharedLat).time = [] := by
  refine ⟨?_, by decide⟩
  have h1 := hx.2 _ (sharedBest_ok.feasible sharedP_wf)
  rw [cost_pointOf sharedP_wf sharedBest_ok, objective_eq sharedP_wf hx.1] at h1
  obtain ⟨hr, -⟩ := hx.1.ratSchedule sharedP_wf
  have hl := hr.lat
  have ho := hr.order
  have h0 := hr.input 0 (by decide) rfl
  have hn := hr.nonneg
  rw [lpBuffers_eq sharedP_wf hx.1 hi, total_buffersFor]
  have hc : ∀ n ∈ nodesOf sharedP, _ := fun n hn => intTimes_cast hi hn
  generalize startTimes sharedP (lpBuild sharedP sharedLat) x = T at *
  unfold cost at h1
  rw [sharedP_channels] at *
  simp only [List.mem_cons, List.not_mem_nil, or_false, forall_eq_or_imp, forall_eq, weight, sharedLat, List.map_cons, List.map_nil, List.sum_cons,
    List.sum_nil, sharedBest] at hl ho h1
  have n4 := hn 4 (by decide)
  norm_num at hl ho h1
  obtain ⟨l1, l2, l3, l4, l5, l6, l7, l8, l9, l10⟩ := hl
  obtain ⟨o1, o2, o3, o4, o5, o6, o7, o8, o9, o10⟩ := ho
  have c0 := hc 0 (by decide)
  have c2 := hc 2 (by decide)
  have c3 := hc 3 (by decide)
  have c4 := hc 4 (by decide)
  have c5 := hc 5 (by decide)
  have c6 := hc 6 (by decide)
  have c7 := hc 7 (by decide)
  have c8 := hc 8 (by decide)
  have t3 : T 3 = 5 := by linarith
  have t4 : T 4 = 0 := by linarith
  have t7 : T 7 = 5 := by linarith
  have t8 : T 8 = 5 := by linarith
  simp only [List.map_cons, List.map_nil, List.sum_cons, List.sum_nil, slack, sharedP, sharedLat, Def.isConstantInput]
  have : ∀ a : Int, (a : ℚ) = 5 → a = 5 := fun a h => by exact_mod_cast h
  have i0 : intTimes sharedP sharedLat x 0 = 0 := by have := c0.trans h0; exact_mod_cast this
  have i4 : intTimes sharedP sharedLat x 4 = 0 := by have := c4.trans t4; exact_mod_cast this
  have i3 := this _ (c3.trans t3)
  have i7 := this _ (c7.trans t7)
  have i8 := this _ (c8.trans t8)
  simp only [sharedP, sharedLat] at i0 i4 i3 i7 i8
  norm_num
  omega

/-- `y = g(f(x)); out = y.offset(-10) + x`; `f` takes five cycles. -/
def pastP : Prog := ⟨6, fun v => match v with
  | 0 => .stream
  | 1 => .node [0]
  | 2 => .node [1]
  | 3 => .offset 2 (-10)
  | 4 => .node [3, 0]
  | 5 => .output (some 4)
  | _ => .erased⟩

def pastLat (v : Nat) : Int := if v = 1 then 5 else 0

theorem pastP_wf : WF pastP := by
  refine ⟨by decide, ?_, ?_⟩
  · intro i hi
    match i, hi with
    | 0, _ | 1, _ | 2, _ | 3, _ | 4, _ | 5, _ => exact ⟨(fun _ _ h => by cases h), (fun h => by cases h)⟩
    | i + 6, hi => exact absurd hi (by simp [pastP])
  · intro i hi s k h
    match i, hi, h with
    | 3, _, h => cases h; decide
    | i + 6, hi, _ => exact absurd hi (by simp [pastP])

theorem pastP_channels : channels pastP = [⟨0, 1, 0, 0⟩, ⟨1, 2, 0, 0⟩, ⟨2, 4, 0, -10⟩, ⟨0, 4, 1, 0⟩, ⟨4, 5, -1, 0⟩] := by decide

def pastBest (n : Nat) : ℚ := if n = 0 ∨ n = 1 then 0 else 5

theorem pastBest_ok : RatSchedule pastP pastLat pastBest := by
  refine ⟨fun n _ => by unfold pastBest; split <;> norm_num, ?_, ?_, ?_⟩
  · intro n hn hi
    obtain ⟨h1, h2⟩ := mem_nodesOf.1 hn
    match n, h1, hi with
    | 0, _, _ => rfl
    | i + 6, hi, _ => exact absurd hi (by simp [pastP])
  · rw [pastP_channels]; simp [weight, pastLat, pastBest]
  · rw [pastP_channels]; simp [pastBest]

/-- **C83, false in general: operands from the past.**  The ASAP scheduler inserts five stages, the linear scheduler fifteen, in a kernel without
constants: its variables for differences of start times have the lower bound 0 (line 69), so the addition waits for `g`, whose old values it reads. -/
theorem lp_inserts_more_offset {x : Nat → ℚ} (hx : Optimal (lpBuild pastP pastLat) x) (hi : Integral (lpBuild pastP pastLat) x) :
    total (lpBuffers pastP (lpBuild pastP pastLat) (.solved x)) = 15 ∧ total (buffersFor pastP pastLat (asap pastP pastLat).time) = 5 := by
  refine ⟨?_, by decide⟩
  have h1 := hx.2 _ (pastBest_ok.feasible pastP_wf)
  rw [cost_pointOf pastP_wf pastBest_ok, objective_eq pastP_wf hx.1] at h1
  obtain ⟨hr, -⟩ := hx.1.ratSchedule pastP_wf
  have hl := hr.lat
  have ho := hr.order
  have h0 := hr.input 0 (by decide) rfl
  have hn := hr.nonneg
  rw [lpBuffers_eq pastP_wf hx.1 hi, total_buffersFor]
  have hc : ∀ n ∈ nodesOf pastP, _ := fun n hn => intTimes_cast hi hn
  generalize startTimes pastP (lpBuild pastP pastLat) x = T at *
  unfold cost at h1
  rw [pastP_channels] at *
  simp only [List.mem_cons, List.not_mem_nil, or_false, forall_eq_or_imp, forall_eq, weight, pastLat, List.map_cons, List.map_nil, List.sum_cons,
    List.sum_nil, pastBest] at hl ho h1
  have n1 := hn 1 (by decide)
  norm_num at hl ho h1
  obtain ⟨l1, l2, l3, l4, l5⟩ := hl
  obtain ⟨o1, o2, o3, o4, o5⟩ := ho
  have c0 := hc 0 (by decide)
  have c4 := hc 4 (by decide)
  have c5 := hc 5 (by decide)
  have t4 : T 4 = 5 := by linarith
  have t5 : T 5 = 5 := by linarith
  have : ∀ a : Int, (a : ℚ) = 5 → a = 5 := fun a h => by exact_mod_cast h
  have i0 : intTimes pastP pastLat x 0 = 0 := by have := c0.trans h0; exact_mod_cast this
  have i4 := this _ (c4.trans t4)
  have i5 := this _ (c5.trans t5)
  simp only [pastP] at i0 i4 i5
  simp only [List.map_cons, List.map_nil, List.sum_cons, List.sum_nil, slack, pastP, pastLat, Def.isConstantInput]
  norm_num
  omega

/-! ### A kernel of the first kind -/

/-- `out = (x + c) + f(x)`; `f` takes five cycles. -/
def onceP : Prog := ⟨6, fun v => match v with
  | 0 => .stream
  | 1 => .const
  | 2 => .node [0, 1]
  | 3 => .node [0]
  | 4 => .node [2, 3]
  | 5 => .output (some 4)
  | _ => .erased⟩

def onceLat (v : Nat) : Int := if v = 3 then 5 else 0

theorem onceP_wf : WF onceP := by
  refine ⟨by decide, ?_, ?_⟩
  · intro i hi
    match i, hi with
    | 0, _ | 1, _ | 2, _ | 3, _ | 4, _ | 5, _ => exact ⟨(fun _ _ h => by cases h), (fun h => by cases h)⟩
    | i + 6, hi => exact absurd hi (by simp [onceP])
  · intro i hi s k h
    match i, hi, h with
    | i + 6, hi, _ => exact absurd hi (by simp [onceP])

theorem onceP_channels : channels onceP = [⟨0, 2, 0, 0⟩, ⟨1, 2, 1, 0⟩, ⟨0, 3, 0, 0⟩, ⟨2, 4, 0, 0⟩, ⟨3, 4, 1, 0⟩, ⟨4, 5, -1, 0⟩] := by decide

theorem onceP_sole : SoleConstants onceP := by
  refine ⟨by decide, ?_⟩
  have key : ∀ (i : Nat) (c : Chan), (channels onceP)[i]? = some c → onceP.defn c.src = .const → i = 1 := by
    intro i c h hd
    rw [onceP_channels] at h
    match i, h with
    | 0, h | 2, h | 3, h | 4, h | 5, h => cases h; cases hd
    | 1, h => rfl
    | i + 6, h => cases h
  intro i j c d hc hd he hk
  rw [key i c hc hk, key j d hd (he ▸ hk)]

/-- The linear scheduler has an answer for that kernel, and inserts at most the five stages of the ASAP scheduler. -/
example : ∃ x, Optimal (lpBuild onceP onceLat) x ∧ Integral (lpBuild onceP onceLat) x ∧
    total (lpBuffers onceP (lpBuild onceP onceLat) (.solved x)) ≤ 5 := by
  obtain ⟨x, h1, -, h3⟩ := lp_has_optimal_vertex onceP_wf onceLat
  refine ⟨x, h1, h3, ?_⟩
  have h4 := lp_not_more_than_asap_partial onceP_wf onceP_sole (by rw [onceP_channels]; decide) h1 h3
  have h5 : total (buffersFor onceP onceLat (asap onceP onceLat).time) = 5 := by decide
  omega

end Verif.Sched
