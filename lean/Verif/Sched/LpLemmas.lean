import Verif.Sched.LpSpec
import Verif.Sched.AsapProps
import Mathlib.Tactic.Linarith
import Mathlib.Tactic.Ring
import Mathlib.Tactic.Push
/- Helper lemmas for the linear-programming scheduler. -/
namespace Verif.Sched
open Verif.Dfcxx (Fault)

/-! ### Shape of the problem -/

structure NodeInv (P : Prog) (done : List Nat) (st : LpState) : Prop where
  col   : st.col = done.length + 1
  map   : ∀ i n, done[i]? = some n → st.nodeMap n = i + 1
  cons  : ∀ x, (∀ c ∈ st.cons, c.Holds x) ↔ ∀ n ∈ done, (P.defn n).isInput → x (st.nodeMap n) = 0
  buf   : st.bufMap = []
  delta : st.deltas = []

theorem lpNode_inv {P : Prog} {done : List Nat} {st : LpState} (h : NodeInv P done st) (n : Nat) (hn : n ∉ done) :
    NodeInv P (done ++ [n]) (lpNode P st n) := by
  have hnm : ∀ m ∈ done, m ≠ n := fun m hm h => hn (h ▸ hm)
  have hcol : (lpNode P st n).col = st.col + 1 := by unfold lpNode synchronizeInput LpState.add; split <;> rfl
  have hmap : (lpNode P st n).nodeMap = fun m => if m = n then st.col else st.nodeMap m := by
    unfold lpNode synchronizeInput LpState.add; split <;> rfl
  refine ⟨?_, ?_, ?_, ?_, ?_⟩
  · rw [hcol, h.col]; simp
  · intro i m hi
    rw [hmap]; simp only
    by_cases hl : i < done.length
    · rw [List.getElem?_append_left hl] at hi
      have hm : m ∈ done := List.mem_of_getElem? hi
      rw [if_neg (hnm m hm)]; exact h.map i m hi
    · rw [List.getElem?_append_right (by omega)] at hi
      obtain ⟨h1, h2⟩ := List.getElem?_eq_some_iff.1 hi
      simp at h1 h2
      rw [if_pos h2.symm, h.col]; omega
  · intro x
    have hold : (∀ m ∈ done, (P.defn m).isInput → x (st.nodeMap m) = 0) ↔
        (∀ m ∈ done, (P.defn m).isInput → x ((lpNode P st n).nodeMap m) = 0) := by
      rw [hmap]
      constructor <;> intro hh m hm hi <;> have := hh m hm hi <;> simp only [if_neg (hnm m hm)] at * <;> exact this
    by_cases hi : (P.defn n).isInput
    · have : (lpNode P st n).cons = st.cons ++ [⟨[((lpNode P st n).nodeMap n, 1)], .eq, 0⟩] := by
        unfold lpNode; rw [if_pos hi]; rfl
      rw [this]
      simp only [List.mem_append, List.mem_singleton, or_imp, forall_and, forall_eq]
      rw [h.cons x, hold]
      simp [LpCons.Holds, LpCons.lhs, hi]
    · have : (lpNode P st n).cons = st.cons := by
        unfold lpNode; rw [if_neg hi]
      rw [this, h.cons x, hold]
      simp only [List.mem_append, List.mem_singleton, or_imp, forall_and, forall_eq]
      simp [hi]
  · unfold lpNode synchronizeInput LpState.add; split <;> exact h.buf
  · unfold lpNode synchronizeInput LpState.add; split <;> exact h.delta

theorem lpNodes_inv (P : Prog) : ∀ (l done : List Nat) (st : LpState), (done ++ l).Nodup → NodeInv P done st →
    NodeInv P (done ++ l) (l.foldl (lpNode P) st) := by
  intro l
  induction l with
  | nil => intro done st _ h; simpa using h
  | cons n l ih =>
    intro done st hnd h
    have hn : n ∉ done := by
      intro hm
      rw [List.nodup_append] at hnd
      exact hnd.2.2 n hm n (by simp) rfl
    have := ih (done ++ [n]) (lpNode P st n) (by simpa using hnd) (lpNode_inv h n hn)
    simpa using this

/-- Weight of a channel. -/
def weight (lat : Nat → Int) (c : Chan) : Int := lat c.src + c.off

theorem lpChan_fold (lat : Nat → Int) : ∀ (cs : List Chan) (st : LpState),
    let st' := cs.foldl (lpChan lat) st
    st'.nodeMap = st.nodeMap ∧ st'.col = st.col + 2 * cs.length ∧
    st'.bufMap = st.bufMap ++ cs.mapIdx (fun i c => (c, st.col + 2 * i + 1)) ∧
    st'.deltas = st.deltas ++ cs.mapIdx (fun i _ => st.col + 2 * i) ∧
    ∀ x, (∀ c ∈ st'.cons, c.Holds x) ↔ (∀ c ∈ st.cons, c.Holds x) ∧
      ∀ i c, cs[i]? = some c →
        (weight lat c : ℚ) ≤ x (st.nodeMap c.tgt) - x (st.nodeMap c.src) ∧
        x (st.col + 2 * i) = x (st.nodeMap c.tgt) - x (st.nodeMap c.src) ∧
        x (st.col + 2 * i + 1) = x (st.nodeMap c.tgt) - x (st.nodeMap c.src) - (weight lat c : ℚ) ∧
        0 ≤ x (st.col + 2 * i + 1) := by
  intro cs
  induction cs with
  | nil => intro st; simp
  | cons c cs ih =>
    intro st
    obtain ⟨h1, h2, h3, h4, h5⟩ := ih (lpChan lat st c)
    simp only [List.foldl_cons]
    have e1 : (lpChan lat st c).nodeMap = st.nodeMap := rfl
    have e2 : (lpChan lat st c).col = st.col + 2 := rfl
    have e3 : (lpChan lat st c).bufMap = st.bufMap ++ [(c, st.col + 1)] := rfl
    have e4 : (lpChan lat st c).deltas = st.deltas ++ [st.col] := rfl
    have e5 : (lpChan lat st c).cons = st.cons ++ [⟨[(st.nodeMap c.tgt, 1), (st.nodeMap c.src, -1)], .ge, (weight lat c : ℚ)⟩] ++
        [⟨[(st.col, 1), (st.nodeMap c.tgt, -1), (st.nodeMap c.src, 1)], .eq, 0⟩] ++
        [⟨[(st.col + 1, 1), (st.nodeMap c.tgt, -1), (st.nodeMap c.src, 1)], .eq, -1 * (weight lat c : ℚ)⟩] ++
        [⟨[(st.col + 1, 1)], .ge, 0⟩] := rfl
    rw [e1] at h1 h5
    rw [e2] at h2 h3 h4 h5
    rw [e3] at h3
    rw [e4] at h4
    refine ⟨h1, ?_, ?_, ?_, ?_⟩
    · rw [h2]; simp; omega
    · rw [h3, List.mapIdx_cons, List.append_assoc]
      congr 1
      simp only [List.singleton_append, Nat.mul_zero, Nat.add_zero, List.cons.injEq, true_and]
      congr 1; funext i d; congr 1; omega
    · rw [h4, List.mapIdx_cons, List.append_assoc]
      congr 1
      simp only [List.singleton_append, Nat.mul_zero, Nat.add_zero, List.cons.injEq, true_and]
      congr 1; funext i d; omega
    · intro x
      have hk : (∀ (i : Nat) (d : Chan), (c :: cs)[i]? = some d →
          (weight lat d : ℚ) ≤ x (st.nodeMap d.tgt) - x (st.nodeMap d.src) ∧
          x (st.col + 2 * i) = x (st.nodeMap d.tgt) - x (st.nodeMap d.src) ∧
          x (st.col + 2 * i + 1) = x (st.nodeMap d.tgt) - x (st.nodeMap d.src) - (weight lat d : ℚ) ∧
          0 ≤ x (st.col + 2 * i + 1)) ↔
          (((weight lat c : ℚ) ≤ x (st.nodeMap c.tgt) - x (st.nodeMap c.src) ∧
          x st.col = x (st.nodeMap c.tgt) - x (st.nodeMap c.src) ∧
          x (st.col + 1) = x (st.nodeMap c.tgt) - x (st.nodeMap c.src) - (weight lat c : ℚ) ∧
          0 ≤ x (st.col + 1)) ∧
          ∀ (i : Nat) (d : Chan), cs[i]? = some d →
          (weight lat d : ℚ) ≤ x (st.nodeMap d.tgt) - x (st.nodeMap d.src) ∧
          x (st.col + 2 + 2 * i) = x (st.nodeMap d.tgt) - x (st.nodeMap d.src) ∧
          x (st.col + 2 + 2 * i + 1) = x (st.nodeMap d.tgt) - x (st.nodeMap d.src) - (weight lat d : ℚ) ∧
          0 ≤ x (st.col + 2 + 2 * i + 1)) := by
        constructor
        · intro h
          refine ⟨by simpa using h 0 c rfl, ?_⟩
          intro i d hd
          have := h (i + 1) d (by simpa using hd)
          rw [show st.col + 2 * (i + 1) = st.col + 2 + 2 * i by omega] at this
          exact this
        · rintro ⟨h, h'⟩ i d hd
          cases i with
          | zero => simp at hd; subst hd; simpa using h
          | succ i =>
            have := h' i d (by simpa using hd)
            rw [show st.col + 2 * (i + 1) = st.col + 2 + 2 * i by omega]
            exact this
      have hc : (∀ d ∈ (lpChan lat st c).cons, d.Holds x) ↔ (∀ d ∈ st.cons, d.Holds x) ∧
          ((weight lat c : ℚ) ≤ x (st.nodeMap c.tgt) - x (st.nodeMap c.src) ∧
          x st.col = x (st.nodeMap c.tgt) - x (st.nodeMap c.src) ∧
          x (st.col + 1) = x (st.nodeMap c.tgt) - x (st.nodeMap c.src) - (weight lat c : ℚ) ∧
          0 ≤ x (st.col + 1)) := by
        rw [e5]
        simp only [List.mem_append, List.mem_singleton, or_imp, forall_and, forall_eq]
        simp only [LpCons.Holds, LpCons.lhs, List.map_cons, List.map_nil, List.sum_cons, List.sum_nil]
        constructor
        · rintro ⟨⟨⟨⟨h0, ha⟩, hb⟩, hc⟩, hd⟩
          exact ⟨h0, by linarith, by linarith, by linarith, by linarith⟩
        · rintro ⟨h0, ha, hb, hc, hd⟩
          exact ⟨⟨⟨⟨h0, by linarith⟩, by linarith⟩, by linarith⟩, by linarith⟩
      rw [h5 x, hk, hc, and_assoc]

/-! ### Feasible points are schedules over the rationals -/

theorem nodesOf_nodup (P : Prog) : (nodesOf P).Nodup := List.Nodup.filter _ List.nodup_range

theorem mem_nodesOf {P : Prog} {n : Nat} : n ∈ nodesOf P ↔ n < P.size ∧ (P.defn n).isNode := by
  simp [nodesOf]

/-- First column after the start times. -/
def base (P : Prog) : Nat := (nodesOf P).length + 1

theorem lpBuild_shape (P : Prog) (lat : Nat → Int) :
    (∀ i n, (nodesOf P)[i]? = some n → (lpBuild P lat).nodeMap n = i + 1) ∧
    (lpBuild P lat).col = base P + 2 * (channels P).length ∧
    (lpBuild P lat).bufMap = (channels P).mapIdx (fun i c => (c, base P + 2 * i + 1)) ∧
    (lpBuild P lat).deltas = (channels P).mapIdx (fun i _ => base P + 2 * i) ∧
    ∀ x, (∀ c ∈ (lpBuild P lat).cons, c.Holds x) ↔
      (∀ n ∈ nodesOf P, (P.defn n).isInput → x ((lpBuild P lat).nodeMap n) = 0) ∧
      ∀ i c, (channels P)[i]? = some c →
        (weight lat c : ℚ) ≤ x ((lpBuild P lat).nodeMap c.tgt) - x ((lpBuild P lat).nodeMap c.src) ∧
        x (base P + 2 * i) = x ((lpBuild P lat).nodeMap c.tgt) - x ((lpBuild P lat).nodeMap c.src) ∧
        x (base P + 2 * i + 1) =
          x ((lpBuild P lat).nodeMap c.tgt) - x ((lpBuild P lat).nodeMap c.src) - (weight lat c : ℚ) ∧
        0 ≤ x (base P + 2 * i + 1) := by
  have hn : NodeInv P (nodesOf P) ((nodesOf P).foldl (lpNode P) .init) := by
    have := lpNodes_inv P (nodesOf P) [] .init (by simpa using nodesOf_nodup P)
      ⟨rfl, by simp, by simp [LpState.init], rfl, rfl⟩
    simpa using this
  obtain ⟨h1, h2, h3, h4, h5⟩ := lpChan_fold lat (channels P) ((nodesOf P).foldl (lpNode P) .init)
  change (lpBuild P lat).nodeMap = _ at h1
  change (lpBuild P lat).col = _ at h2
  change (lpBuild P lat).bufMap = _ at h3
  change (lpBuild P lat).deltas = _ at h4
  rw [hn.col] at h2 h3 h4 h5
  refine ⟨?_, h2, by rw [h3, hn.buf]; rfl, by rw [h4, hn.delta]; rfl, ?_⟩
  · intro i n hi; rw [h1]; exact hn.map i n hi
  · intro x
    have := h5 x
    rw [hn.cons x] at this
    rw [h1]; exact this

theorem nodeMap_range {P : Prog} (lat : Nat → Int) {n : Nat} (hn : n ∈ nodesOf P) :
    ∃ i, (nodesOf P)[i]? = some n ∧ (lpBuild P lat).nodeMap n = i + 1 ∧ i + 1 < base P := by
  obtain ⟨i, hi, h⟩ := List.mem_iff_getElem.1 hn
  have : (nodesOf P)[i]? = some n := by rw [List.getElem?_eq_getElem hi, h]
  exact ⟨i, this, (lpBuild_shape P lat).1 i n this, by unfold base; omega⟩

/-- Rational start times meeting the constraints of the problem. -/
structure RatSchedule (P : Prog) (lat : Nat → Int) (T : Nat → ℚ) : Prop where
  nonneg : ∀ n ∈ nodesOf P, 0 ≤ T n
  input  : ∀ n ∈ nodesOf P, (P.defn n).isInput → T n = 0
  lat    : ∀ c ∈ channels P, (weight lat c : ℚ) ≤ T c.tgt - T c.src
  order  : ∀ c ∈ channels P, 0 ≤ T c.tgt - T c.src

theorem chan_nodes {P : Prog} (hP : WF P) {c : Chan} (hc : c ∈ channels P) :
    c.src ∈ nodesOf P ∧ c.tgt ∈ nodesOf P := by
  obtain ⟨h1, h2, s, hs, hr⟩ := chan_dep hP hc
  have h3 := chan_lt hP hc
  exact ⟨mem_nodesOf.2 ⟨by omega, hr.target.1⟩, mem_nodesOf.2 ⟨h1, h2⟩⟩

/-- The point belonging to start times. -/
def pointOf (P : Prog) (lat : Nat → Int) (T : Nat → ℚ) (v : Nat) : ℚ :=
  if v < base P then T (((nodesOf P)[v - 1]?).getD 0)
  else match (channels P)[(v - base P) / 2]? with
    | some c => if (v - base P) % 2 = 0 then T c.tgt - T c.src else T c.tgt - T c.src - weight lat c
    | none => 0

theorem pointOf_node {P : Prog} (lat : Nat → Int) (T : Nat → ℚ) {n : Nat} (hn : n ∈ nodesOf P) :
    pointOf P lat T ((lpBuild P lat).nodeMap n) = T n := by
  obtain ⟨i, h1, h2, h3⟩ := nodeMap_range lat hn
  unfold pointOf
  rw [h2, if_pos h3]; simp [h1]

theorem pointOf_delta {P : Prog} (lat : Nat → Int) (T : Nat → ℚ) {i : Nat} {c : Chan} (hc : (channels P)[i]? = some c) :
    pointOf P lat T (base P + 2 * i) = T c.tgt - T c.src := by
  unfold pointOf
  rw [if_neg (by omega)]
  rw [show (base P + 2 * i - base P) / 2 = i by omega, hc]
  simp only
  rw [if_pos (by omega)]

theorem pointOf_buf {P : Prog} (lat : Nat → Int) (T : Nat → ℚ) {i : Nat} {c : Chan} (hc : (channels P)[i]? = some c) :
    pointOf P lat T (base P + 2 * i + 1) = T c.tgt - T c.src - weight lat c := by
  unfold pointOf
  rw [if_neg (by omega)]
  rw [show (base P + 2 * i + 1 - base P) / 2 = i by omega, hc]
  simp only
  rw [if_neg (by omega)]

/-- Every column is a start time, a delta or a buffer. -/
theorem column_cases (P : Prog) (lat : Nat → Int) {v : Nat} (h1 : 1 ≤ v) (h2 : v < (lpBuild P lat).col) :
    (∃ n ∈ nodesOf P, v = (lpBuild P lat).nodeMap n) ∨
    (∃ i c, (channels P)[i]? = some c ∧ v = base P + 2 * i) ∨
    (∃ i c, (channels P)[i]? = some c ∧ v = base P + 2 * i + 1) := by
  obtain ⟨hm, hcol, _⟩ := lpBuild_shape P lat
  rw [hcol] at h2
  by_cases hb : v < base P
  · left
    have hl : v - 1 < (nodesOf P).length := by unfold base at hb; omega
    refine ⟨(nodesOf P)[v - 1], List.getElem_mem hl, ?_⟩
    rw [hm (v - 1) _ (List.getElem?_eq_getElem hl)]; omega
  · right
    have hl : (v - base P) / 2 < (channels P).length := by omega
    by_cases he : (v - base P) % 2 = 0
    · left; exact ⟨_, _, List.getElem?_eq_getElem hl, by omega⟩
    · right; exact ⟨_, _, List.getElem?_eq_getElem hl, by omega⟩

theorem RatSchedule.feasible {P : Prog} (hP : WF P) {lat : Nat → Int} {T : Nat → ℚ} (h : RatSchedule P lat T) :
    Feasible (lpBuild P lat) (pointOf P lat T) := by
  refine ⟨?_, ?_⟩
  · rw [(lpBuild_shape P lat).2.2.2.2]
    refine ⟨fun n hn hi => by rw [pointOf_node lat T hn]; exact h.input n hn hi, ?_⟩
    intro i c hc
    have hm := List.mem_of_getElem? hc
    obtain ⟨h1, h2⟩ := chan_nodes hP hm
    rw [pointOf_node lat T h1, pointOf_node lat T h2, pointOf_delta lat T hc, pointOf_buf lat T hc]
    have := h.lat c hm
    exact ⟨this, rfl, rfl, by linarith⟩
  · intro v h1 h2
    rcases column_cases P lat h1 h2 with ⟨n, hn, rfl⟩ | ⟨i, c, hc, rfl⟩ | ⟨i, c, hc, rfl⟩
    · rw [pointOf_node lat T hn]; exact h.nonneg n hn
    · rw [pointOf_delta lat T hc]; exact h.order c (List.mem_of_getElem? hc)
    · rw [pointOf_buf lat T hc]; have := h.lat c (List.mem_of_getElem? hc); linarith

theorem startTimes_node {P : Prog} (lat : Nat → Int) (x : Nat → ℚ) {n : Nat} (hn : n ∈ nodesOf P) :
    startTimes P (lpBuild P lat) x n = x ((lpBuild P lat).nodeMap n) := by
  unfold startTimes; rw [if_pos (mem_nodesOf.1 hn)]

theorem Feasible.ratSchedule {P : Prog} (hP : WF P) {lat : Nat → Int} {x : Nat → ℚ} (h : Feasible (lpBuild P lat) x) :
    RatSchedule P lat (startTimes P (lpBuild P lat) x) ∧
    ∀ v, 1 ≤ v → v < (lpBuild P lat).col → x v = pointOf P lat (startTimes P (lpBuild P lat) x) v := by
  have hcol := (lpBuild_shape P lat).2.1
  obtain ⟨hi, hc⟩ := ((lpBuild_shape P lat).2.2.2.2 x).1 h.cons
  refine ⟨⟨?_, ?_, ?_, ?_⟩, ?_⟩
  · intro n hn
    rw [startTimes_node lat x hn]
    obtain ⟨i, _, h2, h3⟩ := nodeMap_range lat hn
    exact h.nonneg _ (by omega) (by omega)
  · intro n hn hin; rw [startTimes_node lat x hn]; exact hi n hn hin
  · intro c hm
    obtain ⟨h1, h2⟩ := chan_nodes hP hm
    obtain ⟨i, hl, rfl⟩ := List.mem_iff_getElem.1 hm
    rw [startTimes_node lat x h1, startTimes_node lat x h2]
    exact (hc i _ (List.getElem?_eq_getElem hl)).1
  · intro c hm
    obtain ⟨h1, h2⟩ := chan_nodes hP hm
    obtain ⟨i, hl, rfl⟩ := List.mem_iff_getElem.1 hm
    rw [startTimes_node lat x h1, startTimes_node lat x h2]
    rw [← (hc i _ (List.getElem?_eq_getElem hl)).2.1]
    exact h.nonneg _ (by unfold base; omega) (by omega)
  · intro v h1 h2
    rcases column_cases P lat h1 h2 with ⟨n, hn, rfl⟩ | ⟨i, c, hci, rfl⟩ | ⟨i, c, hci, rfl⟩
    · rw [pointOf_node lat _ hn, startTimes_node lat x hn]
    · obtain ⟨hs, ht⟩ := chan_nodes hP (List.mem_of_getElem? hci)
      rw [pointOf_delta lat _ hci, startTimes_node lat x hs, startTimes_node lat x ht]
      exact (hc i c hci).2.1
    · obtain ⟨hs, ht⟩ := chan_nodes hP (List.mem_of_getElem? hci)
      rw [pointOf_buf lat _ hci, startTimes_node lat x hs, startTimes_node lat x ht]
      exact (hc i c hci).2.2.1

theorem mapIdx_map_sum {cs : List Chan} (f : Nat → ℚ) (g : Chan → ℚ) (b : Nat)
    (h : ∀ i c, cs[i]? = some c → f (b + 2 * i) = g c) :
    ((cs.mapIdx fun i _ => b + 2 * i).map f).sum = (cs.map g).sum := by
  congr 1
  refine List.ext_getElem (by simp) ?_
  intro i h1 h2
  simp only [List.getElem_map, List.getElem_mapIdx]
  simp only [List.length_map] at h2
  exact h i _ (List.getElem?_eq_getElem h2)

/-- The objective is the total of the start-time differences. -/
theorem objective_eq {P : Prog} (hP : WF P) {lat : Nat → Int} {x : Nat → ℚ} (h : Feasible (lpBuild P lat) x) :
    objective (lpBuild P lat) x = ((channels P).map fun c =>
      startTimes P (lpBuild P lat) x c.tgt - startTimes P (lpBuild P lat) x c.src).sum := by
  unfold objective
  rw [(lpBuild_shape P lat).2.2.2.1]
  refine mapIdx_map_sum _ _ _ ?_
  intro i c hc
  have hl := (List.getElem?_eq_some_iff.1 hc).1
  rw [(h.ratSchedule hP).2 _ (by unfold base; omega) (by rw [(lpBuild_shape P lat).2.1]; omega), pointOf_delta lat _ hc]

theorem startTimes_pointOf {P : Prog} (lat : Nat → Int) (T : Nat → ℚ) {n : Nat} (hn : n ∈ nodesOf P) :
    startTimes P (lpBuild P lat) (pointOf P lat T) n = T n := by
  rw [startTimes_node lat _ hn, pointOf_node lat T hn]

end Verif.Sched
