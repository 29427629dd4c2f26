import Verif.Sched.LpProps
import Mathlib.Algebra.BigOperators.Intervals
import Mathlib.Algebra.Order.BigOperators.Group.Finset
/-
C82: the arithmetic of the schedulers.  The passes compute start times, channel offsets and buffer lengths in `int32_t`
(/repo/src/model/dfcir/lib/dfcir/passes/DFCIRASAPSchedulerPass.cpp:34-72, DFCIRScheduleUtils.cpp:45-69, DFCIRLinearSchedulerPass.cpp:53-156,
/repo/src/model/dfcir/include/dfcir/passes/DFCIRScheduleUtils.h:39-58), where overflow is undefined; Verif/Sched/Model.lean computes in the integers.
Here are the computations with every addition checked, and bounds under which none overflows.
-/
namespace Verif.Sched
open Verif.Dfcxx (Fault)

/-! ### The computations in `int32_t` -/

/-- A result of type `int32_t`: undefined behaviour if it does not fit. -/
def int32 (z : Int) : Except Fault Int := if -(2 ^ 31) ≤ z ∧ z < 2 ^ 31 then .ok z else .error .ub

/-- `findNearestNodeValue` (DFCIRScheduleUtils.cpp:45-69): `offsetSum += ...`. -/
def nearest32 (P : Prog) : (fuel : Nat) → Nat → Int → Except Fault (Nat × Int)
  | 0, v, acc => .ok (v, acc)
  | fuel + 1, v, acc => match P.defn v with
    | .offset s k => match int32 (acc + wrap32 k) with
      | .ok z => nearest32 P fuel s z
      | .error f => .error f
    | .output (some s) => nearest32 P fuel s acc
    | _ => .ok (v, acc)

/-- `latency` of line 45 of the ASAP pass: `map[node] + node->latency + channel->offset`. -/
def arrival32 (T lat : Nat → Int) (c : Chan) : Except Fault Int := match int32 (T c.src + lat c.src) with
  | .ok a => int32 (a + c.off)
  | .error f => .error f

/-- The inner loop (DFCIRASAPSchedulerPass.cpp:44-54). -/
def asapChan32 (P : Prog) (lat : Nat → Int) (st : AsapState) (c : Chan) : Except Fault AsapState := match arrival32 st.time lat c with
  | .error f => .error f
  | .ok l => .ok
    { time := if l > st.time c.tgt then fun n => if n = c.tgt then l else st.time n else st.time
      maxLatency := if (P.defn c.tgt).isOutput ∧ l > st.maxLatency then l else st.maxLatency }

/-- A loop. -/
def foldE {σ α : Type} (f : σ → α → Except Fault σ) : σ → List α → Except Fault σ
  | s, [] => .ok s
  | s, a :: l => match f s a with
    | .ok s' => foldE f s' l
    | .error e => .error e

def asapNode32 (P : Prog) (lat : Nat → Int) (st : AsapState) (n : Nat) : Except Fault AsapState := foldE (asapChan32 P lat) st (outChans P n)

/-- The loops over nodes and channels (lines 41-55). -/
def asap32 (P : Prog) (lat : Nat → Int) : Except Fault AsapState := foldE (asapNode32 P lat) ⟨fun _ => 0, 0⟩ (List.range P.size)

/-- `delta` (lines 61-64). -/
def delta32 (T lat : Nat → Int) (c : Chan) : Except Fault Int := match arrival32 T lat c with
  | .ok a => int32 (T c.tgt - a)
  | .error f => .error f

/-! ### The bound -/

/-- How far an operation looks away. -/
def Def.reach : Def → Int
  | .offset _ k => |k|
  | _ => 0

/-- The sum of the distances of all offsets of the kernel. -/
def offsetSum (P : Prog) : Int := ∑ i ∈ Finset.range P.size, (P.defn i).reach

/-- A kernel is modest: with `L` the longest latency, (L + sum of offsets) · (number of operations + 1) fits in `int32_t`. -/
structure Modest (P : Prog) (lat : Nat → Int) (L : Int) : Prop where
  lat : ∀ v, 0 ≤ lat v ∧ lat v ≤ L
  fits : (L + offsetSum P) * (P.size + 1) < 2 ^ 31

/-! ### Proofs -/

theorem Def.reach_nonneg (d : Def) : 0 ≤ d.reach := by cases d <;> simp [Def.reach]

theorem int32_ok {z : Int} (h1 : -(2 ^ 31) ≤ z) (h2 : z < 2 ^ 31) : int32 z = .ok z := by
  unfold int32
  rw [if_pos ⟨h1, h2⟩]

theorem wrap32_abs {P : Prog} (hP : WF P) {v s : Nat} {k : Int} (hv : v < P.size) (hd : P.defn v = .offset s k) : wrap32 k = k :=
  wrap32_range (hP.range v hv s k hd).1 (hP.range v hv s k hd).2

/-- Sum of the distances up to `v`. -/
def reachTo (P : Prog) (v : Nat) : Int := ∑ i ∈ Finset.range v, (P.defn i).reach

theorem reachTo_mono (P : Prog) {a b : Nat} (h : a ≤ b) : reachTo P a ≤ reachTo P b := by
  unfold reachTo
  exact Finset.sum_le_sum_of_subset_of_nonneg (Finset.range_mono h) fun i _ _ => Def.reach_nonneg _

theorem reachTo_nonneg (P : Prog) (v : Nat) : 0 ≤ reachTo P v := Finset.sum_nonneg fun i _ => Def.reach_nonneg _

theorem nearest32_eq {P : Prog} (hP : WF P) : ∀ (fuel v : Nat) (acc : Int), v < fuel → v < P.size → |acc| + reachTo P (v + 1) < 2 ^ 31 →
    nearest32 P fuel v acc = .ok (nearest P fuel v acc) ∧ |(nearest P fuel v acc).2 - acc| ≤ reachTo P (v + 1) := by
  intro fuel
  induction fuel with
  | zero => intro v acc h; omega
  | succ fuel ih =>
    intro v acc h hv hb
    have hr := hP.refs v hv
    have h0 := reachTo_nonneg P (v + 1)
    unfold nearest32 nearest
    cases hd : P.defn v with
    | offset s k =>
      rw [hd] at hr
      have hs : s < v := hr s (by simp [Def.refs])
      simp only [wrap32_abs hP hv hd]
      have e : reachTo P (v + 1) = reachTo P v + |k| := by simp [reachTo, Finset.sum_range_succ, hd, Def.reach]
      have hm := reachTo_mono P (show s + 1 ≤ v by omega)
      have hs0 := reachTo_nonneg P (s + 1)
      have ha : |acc + k| ≤ |acc| + |k| := abs_add_le _ _
      rw [int32_ok (by have := neg_abs_le (acc + k); omega) (by have := le_abs_self (acc + k); omega)]
      obtain ⟨h1, h2⟩ := ih s (acc + k) (by omega) (by omega) (by omega)
      refine ⟨h1, ?_⟩
      have : (nearest P fuel s (acc + k)).2 - acc = ((nearest P fuel s (acc + k)).2 - (acc + k)) + k := by ring
      rw [this]
      refine (abs_add_le _ _).trans ?_
      omega
    | output o =>
      cases o with
      | none => exact ⟨rfl, by simpa using h0⟩
      | some s =>
        rw [hd] at hr
        have hs : s < v := hr s (by simp [Def.refs])
        have hm := reachTo_mono P (show s + 1 ≤ v + 1 by omega)
        obtain ⟨h1, h2⟩ := ih s acc (by omega) (by omega) (by omega)
        exact ⟨h1, h2.trans hm⟩
    | _ => exact ⟨rfl, by simpa using h0⟩

/-- Offsets of channels. -/
theorem chan_off {P : Prog} (hP : WF P) (hb : offsetSum P < 2 ^ 31) {c : Chan} (hc : c ∈ channels P) : |c.off| ≤ offsetSum P := by
  have key : ∀ s < P.size, |(nearestOf P s).2| ≤ offsetSum P := by
    intro s hs
    have hm : reachTo P (s + 1) ≤ offsetSum P := reachTo_mono P hs
    have := (nearest32_eq hP (s + 1) s 0 (by omega) hs (by simp; omega)).2
    unfold nearestOf
    simp only [sub_zero] at this
    omega
  obtain ⟨h1, h2⟩ := mem_channels.1 hc
  have hr := hP.refs _ h1
  unfold inChans at h2
  split at h2
  · rename_i s hd
    rw [hd] at hr
    simp only [List.mem_singleton] at h2
    rw [h2]
    exact key s (by have := hr s (by simp [Def.refs]); omega)
  · rename_i args hd
    rw [hd] at hr
    obtain ⟨j, hj, e⟩ := List.mem_mapIdx.1 h2
    rw [← e]
    exact key _ (by have := hr args[j] (by simp [Def.refs]); omega)
  · cases h2

theorem offsetSum_nonneg (P : Prog) : 0 ≤ offsetSum P := reachTo_nonneg P P.size

section
variable {P : Prog} {lat : Nat → Int} {L : Int}

theorem Modest.nonneg (h : Modest P lat L) : 0 ≤ L := by have := h.lat 0; omega

theorem Modest.sum (h : Modest P lat L) : L + offsetSum P < 2 ^ 31 := by
  have h1 := h.nonneg
  have h2 := offsetSum_nonneg P
  have h3 := h.fits
  nlinarith

theorem Modest.off (h : Modest P lat L) (hP : WF P) {c : Chan} (hc : c ∈ channels P) : |c.off| ≤ offsetSum P := by
  have h1 := h.nonneg
  exact chan_off hP (by have := h.sum; omega) hc

/-- `findNearestNodeValue` does not overflow. -/
theorem Modest.nearest (h : Modest P lat L) (hP : WF P) {v : Nat} (hv : v < P.size) : nearest32 P (v + 1) v 0 = .ok (nearestOf P v) := by
  have h1 := h.nonneg
  have hm : reachTo P (v + 1) ≤ offsetSum P := reachTo_mono P hv
  have := h.sum
  exact (nearest32_eq hP (v + 1) v 0 (by omega) hv (by simp; omega)).1

/-- Start times within the bound: the sums fit. -/
theorem Modest.arrival (h : Modest P lat L) (hP : WF P) {T : Nat → Int} {c : Chan} (hc : c ∈ channels P) (h0 : 0 ≤ T c.src)
    (hT : T c.src ≤ (L + offsetSum P) * (P.size : Int)) :
    arrival32 T lat c = .ok (T c.src + lat c.src + c.off) ∧ -(offsetSum P) ≤ T c.src + lat c.src + c.off ∧
      T c.src + lat c.src + c.off ≤ T c.src + (L + offsetSum P) := by
  obtain ⟨l1, l2⟩ := h.lat c.src
  have ho := abs_le.1 (h.off hP hc)
  have hf := h.fits
  have hs := h.sum
  have hn := h.nonneg
  have h2 := offsetSum_nonneg P
  have e : (L + offsetSum P) * ((P.size : Int) + 1) = (L + offsetSum P) * (P.size : Int) + (L + offsetSum P) := by ring
  rw [e] at hf
  refine ⟨?_, by omega, by omega⟩
  unfold arrival32
  rw [int32_ok (by omega) (by omega)]
  simp only
  rw [int32_ok (by omega) (by omega)]

theorem foldE_ok {σ α : Type} {f : σ → α → Except Fault σ} {g : σ → α → σ} {I : σ → Prop} : ∀ (l : List α) (s : σ),
    (∀ s a, a ∈ l → I s → f s a = .ok (g s a) ∧ I (g s a)) → I s → foldE f s l = .ok (l.foldl g s) ∧ I (l.foldl g s)
  | [], s, _, hs => ⟨rfl, hs⟩
  | a :: l, s, h, hs => by
    obtain ⟨h1, h2⟩ := h s a (by simp) hs
    unfold foldE
    rw [h1]
    exact foldE_ok l (g s a) (fun s b hb => h s b (by simp [hb])) h2

/-- The invariant of the loops. -/
def Bounded (P : Prog) (M : Int) (st : AsapState) : Prop := ∀ n, 0 ≤ st.time n ∧ st.time n ≤ M * (n : Int)

/-- **C82, ASAP.**  No addition of the ASAP pass overflows: the computation in `int32_t` gives the start times of the model, ... -/
theorem asap_fits (hP : WF P) (h : Modest P lat L) : asap32 P lat = .ok (asap P lat) ∧ Bounded P (L + offsetSum P) (asap P lat) := by
  unfold asap32 asap
  have hM : 0 ≤ L + offsetSum P := by have := h.nonneg; have := offsetSum_nonneg P; omega
  refine foldE_ok (I := Bounded P (L + offsetSum P)) _ _ ?_ ?_
  · intro st n _ hst
    unfold asapNode32 asapNode
    refine foldE_ok (I := Bounded P (L + offsetSum P)) _ _ ?_ hst
    intro st c hc hst
    have hc' : c ∈ channels P := (List.mem_filter.1 hc).1
    obtain ⟨l1, l2⟩ := chan_lt hP hc'
    obtain ⟨t1, t2⟩ := hst c.src
    obtain ⟨a1, a2, a3⟩ := h.arrival hP (T := st.time) hc' t1
      (t2.trans (mul_le_mul_of_nonneg_left (by exact_mod_cast (by omega : c.src ≤ P.size)) hM))
    constructor
    · unfold asapChan32 asapChan
      rw [a1]
    · intro m
      unfold asapChan
      dsimp only
      split
      · rename_i hgt
        by_cases hm : m = c.tgt
        · subst hm
          simp only [if_true]
          have := (hst c.tgt).1
          refine ⟨by omega, a3.trans ?_⟩
          have : ((c.src : Int) + 1) ≤ c.tgt := by omega
          nlinarith
        · simp only [if_neg hm]
          exact hst m
      · exact hst m
  · intro n
    exact ⟨Int.le_refl _, by positivity⟩

/-- Buffer lengths for start times within the bound. -/
theorem Modest.delta (h : Modest P lat L) (hP : WF P) {T : Nat → Int} {c : Chan} (hc : c ∈ channels P)
    (hT : ∀ n < P.size, 0 ≤ T n ∧ T n ≤ (L + offsetSum P) * (P.size : Int)) :
    delta32 T lat c = .ok (T c.tgt - (T c.src + lat c.src + c.off)) ∧ T c.tgt - (T c.src + lat c.src + c.off) < 2 ^ 31 := by
  obtain ⟨l1, l2⟩ := chan_lt hP hc
  obtain ⟨s1, s2⟩ := hT c.src (by omega)
  obtain ⟨t1, t2⟩ := hT c.tgt l2
  obtain ⟨a1, a2, a3⟩ := h.arrival hP hc s1 s2
  have hf := h.fits
  have hs := h.sum
  have hn := h.nonneg
  have e : (L + offsetSum P) * ((P.size : Int) + 1) = (L + offsetSum P) * (P.size : Int) + (L + offsetSum P) := by ring
  rw [e] at hf
  refine ⟨?_, by omega⟩
  unfold delta32
  rw [a1]
  simp only
  rw [int32_ok (by omega) (by omega)]

theorem Bounded.upTo {M : Int} {st : AsapState} (h : Bounded P M st) (hM : 0 ≤ M) : ∀ n < P.size, 0 ≤ st.time n ∧ st.time n ≤ M * (P.size : Int) := by
  intro n hn
  exact ⟨(h n).1, (h n).2.trans (mul_le_mul_of_nonneg_left (by exact_mod_cast hn.le) hM)⟩

/-- ... and the buffer lengths of the model, which are below 2^31. -/
theorem asap_deltas_fit (hP : WF P) (h : Modest P lat L) {c : Chan} (hc : c ∈ channels P) :
    delta32 (asap P lat).time lat c = .ok ((asap P lat).time c.tgt - ((asap P lat).time c.src + lat c.src + c.off)) :=
  (h.delta hP hc ((asap_fits hP h).2.upTo (by have := h.nonneg; have := offsetSum_nonneg P; omega))).1

theorem buffersFor_fit (hP : WF P) (h : Modest P lat L) {T : Nat → Int} (hT : ∀ n < P.size, 0 ≤ T n ∧ T n ≤ (L + offsetSum P) * (P.size : Int)) :
    ∀ p ∈ buffersFor P lat T, p.2 < 2 ^ 31 := by
  intro p hp
  obtain ⟨h1, h3, -⟩ := buffersFor_mem.1 hp
  have := (h.delta hP h1 hT).2
  omega

theorem asap_buffers_fit (hP : WF P) (h : Modest P lat L) : ∀ p ∈ buffersFor P lat (asap P lat).time, p.2 < 2 ^ 31 :=
  buffersFor_fit hP h ((asap_fits hP h).2.upTo (by have := h.nonneg; have := offsetSum_nonneg P; omega))

/-! #### The linear scheduler -/

/-- A direction along which the point may move both ways is trivial at a vertex. -/
theorem vertex_rigid (hP : WF P) {x : Nat → ℚ} (hx : Extreme (lpBuild P lat) x) {S : Nat → ℚ} {ε : ℚ} (hε : 0 < ε)
    (hp : RatSchedule P lat fun m => startTimes P (lpBuild P lat) x m + ε * S m)
    (hm : RatSchedule P lat fun m => startTimes P (lpBuild P lat) x m + -ε * S m) : ∀ n ∈ nodesOf P, S n = 0 := by
  obtain ⟨hf, hex⟩ := hx
  obtain ⟨hr, hpt⟩ := hf.ratSchedule hP
  generalize hT : startTimes P (lpBuild P lat) x = T at hr hpt hp hm
  intro n hn
  have hmid := hex _ _ (hp.feasible hP) (hm.feasible hP) (by
    intro v h1 h2
    rw [hpt v h1 h2]
    rcases column_cases P lat h1 h2 with ⟨m, hm, rfl⟩ | ⟨i, c, hc, rfl⟩ | ⟨i, c, hc, rfl⟩
    · rw [pointOf_node lat _ hm, pointOf_node lat _ hm, pointOf_node lat _ hm]; ring
    · rw [pointOf_delta lat _ hc, pointOf_delta lat _ hc, pointOf_delta lat _ hc]; ring
    · rw [pointOf_buf lat _ hc, pointOf_buf lat _ hc, pointOf_buf lat _ hc]; ring)
  obtain ⟨i, _, h2, h3⟩ := nodeMap_range lat hn
  have hcol := (lpBuild_shape P lat).2.1
  have := hmid ((lpBuild P lat).nodeMap n) (by omega) (by omega)
  rw [hpt _ (by omega) (by omega), pointOf_node lat _ hn, pointOf_node lat _ hn] at this
  have h4 : ε * S n = 0 := by linarith
  rcases mul_eq_zero.1 h4 with h5 | h5
  · exact absurd h5 hε.ne'
  · exact h5

/-- Between the start times of a vertex there is no gap longer than the longest delay. -/
theorem lp_no_gap (hP : WF P) {M : Int} (hM : 0 ≤ M) (hw : ∀ c ∈ channels P, weight lat c ≤ M) {x : Nat → ℚ}
    (hx : Extreme (lpBuild P lat) x) {θ : ℚ} (hθ : 0 ≤ θ) {n : Nat} (hn : n ∈ nodesOf P) (hlt : θ < startTimes P (lpBuild P lat) x n) :
    ∃ m ∈ nodesOf P, θ < startTimes P (lpBuild P lat) x m ∧ startTimes P (lpBuild P lat) x m ≤ θ + M := by
  by_contra hno
  obtain ⟨hr, -⟩ := hx.1.ratSchedule hP
  have hall : ∀ m ∈ nodesOf P, θ < startTimes P (lpBuild P lat) x m → θ + M < startTimes P (lpBuild P lat) x m := by
    intro m hm h1
    by_contra h2
    exact hno ⟨m, hm, h1, not_lt.1 h2⟩
  have hMq : (0 : ℚ) ≤ M := by exact_mod_cast hM
  obtain ⟨ε, hε, hεl⟩ := exists_eps ((nodesOf P).map (fun m => startTimes P (lpBuild P lat) x m - (θ + M)) ++
    (channels P).map (fun c => startTimes P (lpBuild P lat) x c.tgt - startTimes P (lpBuild P lat) x c.src - (M : ℚ)))
  let S : Nat → ℚ := fun m => if θ < startTimes P (lpBuild P lat) x m then 1 else 0
  have hS : ∀ δ : ℚ, |δ| ≤ ε → RatSchedule P lat (fun m => startTimes P (lpBuild P lat) x m + δ * S m) := by
    intro δ hδ
    obtain ⟨hδ1, hδ2⟩ := abs_le.1 hδ
    have hdiff : ∀ c ∈ channels P, ∀ z : ℚ, z ≤ M → z ≤ startTimes P (lpBuild P lat) x c.tgt - startTimes P (lpBuild P lat) x c.src →
        z ≤ (startTimes P (lpBuild P lat) x c.tgt + δ * S c.tgt) - (startTimes P (lpBuild P lat) x c.src + δ * S c.src) := by
      intro c hc z hz hle
      obtain ⟨c1, c2⟩ := chan_nodes hP hc
      have ho := hr.order c hc
      simp only [S]
      by_cases h1 : θ < startTimes P (lpBuild P lat) x c.tgt <;> by_cases h2 : θ < startTimes P (lpBuild P lat) x c.src
      · rw [if_pos h1, if_pos h2]; linarith
      · rw [if_pos h1, if_neg h2]
        have g1 := hall _ c2 h1
        have g2 := hεl _ (List.mem_append_right _ (List.mem_map.2 ⟨c, hc, rfl⟩)) (by linarith)
        linarith
      · exfalso; linarith
      · rw [if_neg h1, if_neg h2]; linarith
    refine ⟨?_, ?_, ?_, ?_⟩
    · intro m hm
      have h0 := hr.nonneg m hm
      simp only [S]
      split
      · rename_i h1
        have g1 := hall m hm h1
        have g2 := hεl _ (List.mem_append_left _ (List.mem_map.2 ⟨m, hm, rfl⟩)) (by linarith)
        linarith
      · linarith
    · intro m hm hin
      have h0 := hr.input m hm hin
      simp only [S]
      rw [if_neg (by rw [h0]; exact not_lt.2 hθ), h0]; ring
    · intro c hc
      exact hdiff c hc _ (by exact_mod_cast hw c hc) (hr.lat c hc)
    · intro c hc
      have := hdiff c hc 0 hMq (by have := hr.order c hc; linarith)
      simpa using this
  have := vertex_rigid hP hx hε (hS ε (by rw [abs_of_pos hε])) (hS (-ε) (by rw [abs_neg, abs_of_pos hε])) n hn
  simp only [S] at this
  rw [if_pos hlt] at this
  exact one_ne_zero this

theorem lp_times_count (hP : WF P) {M : Int} (hM : 0 ≤ M) (hw : ∀ c ∈ channels P, weight lat c ≤ M) {x : Nat → ℚ}
    (hx : Extreme (lpBuild P lat) x) {n : Nat} (hn : n ∈ nodesOf P) : ∀ k : Nat, (M : ℚ) * k < startTimes P (lpBuild P lat) x n →
    k ≤ ((nodesOf P).toFinset.filter fun m => startTimes P (lpBuild P lat) x m ≤ (M : ℚ) * k ∧ 0 < startTimes P (lpBuild P lat) x m).card := by
  have hMq : (0 : ℚ) ≤ M := by exact_mod_cast hM
  intro k
  induction k with
  | zero => intro _; omega
  | succ k ih =>
    intro hk
    have hk' : (M : ℚ) * ((k + 1 : Nat) : ℚ) = M * k + M := by push_cast; ring
    rw [hk'] at hk
    have h1 := ih (by linarith)
    obtain ⟨m, hm, h2, h3⟩ := lp_no_gap hP hM hw hx (θ := (M : ℚ) * k) (by positivity) hn (by linarith)
    have h0 : (0 : ℚ) ≤ M * k := by positivity
    refine Nat.succ_le_of_lt (lt_of_le_of_lt h1 (Finset.card_lt_card ?_))
    rw [Finset.ssubset_iff_of_subset]
    · refine ⟨m, ?_, ?_⟩
      · simp only [Finset.mem_filter, List.mem_toFinset]
        rw [hk']
        exact ⟨hm, h3, by linarith⟩
      · simp only [Finset.mem_filter]
        rintro ⟨-, h4, -⟩
        linarith
    · intro a ha
      simp only [Finset.mem_filter] at ha ⊢
      rw [hk']
      exact ⟨ha.1, by linarith [ha.2.1], ha.2.2⟩

/-- The start times of a vertex are at most (number of operations) · (longest delay). -/
theorem lp_times_bound (hP : WF P) {M : Int} (hM : 0 ≤ M) (hw : ∀ c ∈ channels P, weight lat c ≤ M) {x : Nat → ℚ}
    (hx : Extreme (lpBuild P lat) x) {n : Nat} (hn : n ∈ nodesOf P) : startTimes P (lpBuild P lat) x n ≤ (M : ℚ) * P.size := by
  by_contra hc
  have hc' := not_le.1 hc
  have h1 := lp_times_count hP hM hw hx hn P.size hc'
  have hMq : (0 : ℚ) ≤ M := by exact_mod_cast hM
  have h2 : ((nodesOf P).toFinset.filter fun m => startTimes P (lpBuild P lat) x m ≤ (M : ℚ) * P.size ∧ 0 < startTimes P (lpBuild P lat) x m) ⊂
      Finset.range P.size := by
    rw [Finset.ssubset_iff_of_subset]
    · refine ⟨n, Finset.mem_range.2 (mem_nodesOf.1 hn).1, ?_⟩
      simp only [Finset.mem_filter]
      rintro ⟨-, h4, -⟩
      linarith
    · intro a ha
      simp only [Finset.mem_filter, List.mem_toFinset] at ha
      exact Finset.mem_range.2 (mem_nodesOf.1 ha.1).1
  have h3 := Finset.card_lt_card h2
  rw [Finset.card_range] at h3
  omega

/-- Start times of a vertex within the bound. -/
theorem Modest.lp_times (h : Modest P lat L) (hP : WF P) {x : Nat → ℚ} (hx : Extreme (lpBuild P lat) x) :
    ∀ n < P.size, 0 ≤ intTimes P lat x n ∧ intTimes P lat x n ≤ (L + offsetSum P) * (P.size : Int) := by
  have hM : 0 ≤ L + offsetSum P := by have := h.nonneg; have := offsetSum_nonneg P; omega
  have hw : ∀ c ∈ channels P, weight lat c ≤ L + offsetSum P := by
    intro c hc
    have := (h.lat c.src).2
    have := (abs_le.1 (h.off hP hc)).2
    unfold weight
    omega
  obtain ⟨hr, -⟩ := hx.1.ratSchedule hP
  intro n hn
  by_cases hnode : (P.defn n).isNode
  · have hm : n ∈ nodesOf P := mem_nodesOf.2 ⟨hn, hnode⟩
    refine ⟨Int.floor_nonneg.2 (hr.nonneg n hm), ?_⟩
    have h1 := lp_times_bound hP hM hw hx hm
    have h2 : (intTimes P lat x n : ℚ) ≤ startTimes P (lpBuild P lat) x n := Int.floor_le _
    have h3 : (intTimes P lat x n : ℚ) ≤ ((((L + offsetSum P) * (P.size : Int)) : Int) : ℚ) := by
      push_cast at h1 ⊢
      linarith
    exact_mod_cast h3
  · have : intTimes P lat x n = 0 := by simp [intTimes, startTimes, hnode]
    rw [this]
    exact ⟨Int.le_refl _, by positivity⟩

/-- **C82, linear.**  For an answer of the solver that is a vertex (as those of the simplex method are) the buffer lengths fit in `int32_t`. -/
theorem lp_buffers_fit (hP : WF P) (h : Modest P lat L) {x : Nat → ℚ} (hx : Extreme (lpBuild P lat) x) :
    ∀ p ∈ lpBuffers P (lpBuild P lat) (.solved x), 0 < p.2 ∧ p.2 < 2 ^ 31 := by
  rw [lpBuffers_eq hP hx.1 (lp_vertex_integral hP hx)]
  intro p hp
  refine ⟨?_, buffersFor_fit hP h (h.lp_times hP hx) p hp⟩
  obtain ⟨h1, h2, h3, -⟩ := buffersFor_mem.1 hp
  have hs := lp_schedule hP hx.1 (lp_vertex_integral hP hx)
  have h4 := hs.dep _ _ _ (chan_dep hP h1).1 (chan_dep hP h1).2
  omega

end

end Verif.Sched
