import Verif.Flow.HwTotal
import Verif.Flow.Compiled
import Verif.Flow.Examples
/-
Non-vacuity of C68: `y = u + (x << 1)` with an unsigned 8-bit `u` and a signed 4-bit `x`.  The kernel is not within C58, and the hardware
computes something else than the operators mean.
-/
namespace Verif.Flow
open Verif.Dfcxx Verif.Hw Verif.Sched

def s4t : DFType := .fixed true 3 0

def hwCmds : List Cmd := [.input false "u" u8t, .input false "x" s4t, .shift true 1 1, .bin .ADD 0 2, .output false "y" u8t, .connect 4 3]

theorem hw_hist (F : FloatOps) : ∀ n, n ≤ 6 → Hist F Proper World.init (after F (hwCmds.take n))
  | 0, _ => .nil _
  | n + 1, h => by
    have hn : n < hwCmds.length := h
    have he : ∃ rs, (after F (hwCmds.take n)).exec F (hwCmds[n]'hn) = .ok (after F (hwCmds.take (n + 1)), rs) := by
      have : n < 6 := h
      match n, hn with
      | 0, _ | 1, _ | 2, _ | 3, _ | 4, _ | 5, _ => exact ⟨_, rfl⟩
    have hp : Proper (after F (hwCmds.take n)) (hwCmds[n]'hn) := by
      have : n < 6 := h
      match n, hn with
      | 0, _ | 1, _ | 2, _ | 3, _ | 4, _ => exact proper_simple (Or.inl rfl)
      | 5, _ =>
        refine ⟨⟨trivial, ⟨(fun e => by cases e), fun d => ?_⟩, Or.inl rfl⟩, trivial⟩
        rcases dep_cases d with e | ⟨c, hc, d⟩
        · cases e
        have hc : c ∈ [1, 2] := hc
        simp only [List.mem_cons, List.not_mem_nil, or_false] at hc
        rcases hc with rfl | rfl
        · have d : (after F (hwCmds.take 5)).Dep 4 0 := d
          rcases dep_cases d with e | ⟨c, hc, d⟩
          · cases e
          · cases hc
        · have d : (after F (hwCmds.take 5)).Dep 4 2 := d
          rcases dep_cases d with e | ⟨c, hc, d⟩
          · cases e
          have hc : c ∈ [0] := hc
          simp only [List.mem_cons, List.not_mem_nil, or_false] at hc
          subst hc
          have d : (after F (hwCmds.take 5)).Dep 4 1 := d
          rcases dep_cases d with e | ⟨c, hc, d⟩
          · cases e
          · cases hc
    obtain ⟨rs, he⟩ := he
    exact .snoc _ (hw_hist F n (by omega)) hp he

def hwGraph : KGraph := ⟨0, [4, 3, 2, 1, 0], [1, 0], [("y", 4), ("x", 1), ("u", 0)]⟩

theorem hw_nodes {n : Nat} (hn : n ∈ hwGraph.nodes) : n = 4 ∨ n = 3 ∨ n = 2 ∨ n = 1 ∨ n = 0 := by
  have hn : n ∈ [4, 3, 2, 1, 0] := hn
  simpa using hn

theorem hw_finished (F : FloatOps) : Hist F Proper World.init (after F hwCmds) ∧ Finished (after F hwCmds) hwGraph ∧
    Enumeration (after F hwCmds) hwGraph ((after F hwCmds).sortGraph hwGraph) := by
  refine ⟨hw_hist F 6 (Nat.le_refl _), ⟨rfl, rfl, ?_, ?_⟩, ⟨List.Perm.refl _, List.Perm.refl _, ?_, ?_⟩⟩
  · intro n hn hop
    rcases hw_nodes hn with rfl | rfl | rfl | rfl | rfl
    · rfl
    all_goals cases hop
  · intro n hn hop
    rcases hw_nodes hn with rfl | rfl | rfl | rfl | rfl <;> cases hop
  · intro n hn; exact if_pos hn
  · intro n hn; exact if_neg hn

theorem hw_views (F : FloatOps) : (after F hwCmds).view 0 = ⟨.IN, .none, u8t, .stream, "u", []⟩ ∧
    (after F hwCmds).view 1 = ⟨.IN, .none, s4t, .stream, "x", []⟩ ∧
    (after F hwCmds).view 2 = ⟨.SHL, .bitShift 1, s4t, .stream, "", [(1, false)]⟩ ∧
    (after F hwCmds).view 3 = ⟨.ADD, .none, u8t, .stream, "", [(0, false), (2, false)]⟩ ∧
    (after F hwCmds).view 4 = ⟨.OUT, .none, u8t, .stream, "y", [(3, true)]⟩ := ⟨rfl, rfl, rfl, rfl, rfl⟩

/-- Hardware is produced for the kernel, whatever the latencies. -/
theorem hw_handled (F : FloatOps) (L : Nat → Nat) : HwHandled (after F hwCmds).view L hwGraph.nodes := by
  obtain ⟨v0, v1, v2, v3, v4⟩ := hw_views F
  have hT : TypeOK u8t := ⟨by decide, by decide, by intro e f h; cases h⟩
  have hT' : TypeOK s4t := ⟨by decide, by decide, by intro e f h; cases h⟩
  refine ⟨?_, ?_, ?_, ?_⟩
  · intro n h
    rcases hw_nodes h with rfl | rfl | rfl | rfl | rfl
    · refine ⟨by rw [v4]; exact hT.size, ?_⟩
      rw [v4]; simp [NodeV.srcs, v3, SameHw]
    · refine ⟨by rw [v3]; exact hT.size, ?_⟩
      rw [v3]; exact .inr rfl
    · refine ⟨by rw [v2]; exact hT'.size, ?_⟩
      rw [v2]; simp [NodeV.srcs, v1, SameHw]; exact .inr (by decide)
    · refine ⟨by rw [v1]; exact hT'.size, ?_⟩
      rw [v1]; trivial
    · refine ⟨by rw [v0]; exact hT.size, ?_⟩
      rw [v0]; trivial
  · intro n h k hk
    rcases hw_nodes h with rfl | rfl | rfl | rfl | rfl
    · rw [v4] at hk; cases hk
    · rw [v3] at hk; cases hk
    · rw [v2] at hk; cases hk
    · rw [v1] at hk; cases hk
    · rw [v0] at hk; cases hk
  · intro n h
    rcases hw_nodes h with rfl | rfl | rfl | rfl | rfl
    · rw [v4]; simp [NodeV.srcs]
    · rw [v3]; simp [NodeV.srcs]
    · rw [v2]; simp [NodeV.srcs]
    · rw [v1]; simp [NodeV.srcs]
    · rw [v0]; simp [NodeV.srcs]
  · intro n h s hs
    rcases hw_nodes h with rfl | rfl | rfl | rfl | rfl
    · rw [v4] at hs; simp [NodeV.srcs] at hs; subst hs; rw [v3]; simp
    · rw [v3] at hs; simp [NodeV.srcs] at hs; rcases hs with rfl | rfl
      · rw [v0]; simp
      · rw [v2]; simp
    · rw [v2] at hs; simp [NodeV.srcs] at hs; subst hs; rw [v1]; simp
    · rw [v1] at hs; simp [NodeV.srcs] at hs
    · rw [v0] at hs; simp [NodeV.srcs] at hs

/-- It is not within C58. -/
theorem hw_not_handled (F : FloatOps) (L : Nat → Nat) : ¬ Handled (after F hwCmds).view L hwGraph.nodes := by
  intro H
  have := (H.supp 2 (by decide)).2
  rw [(hw_views F).2.2.1] at this
  exact absurd this.1 (by unfold unsignedTy; decide)

theorem hw_signs (F : FloatOps) : SignsByWidth (after F hwCmds).view hwGraph.nodes := by
  obtain ⟨v0, v1, v2, v3, v4⟩ := hw_views F
  intro m hm n hn
  rcases hw_nodes hm with rfl | rfl | rfl | rfl | rfl <;> rcases hw_nodes hn with rfl | rfl | rfl | rfl | rfl <;>
    simp only [v0, v1, v2, v3, v4] <;> decide

/-- The stream of the output in hardware: the sign bit of `x` stays where it is, and the shifted value is zero-extended. -/
theorem hw_stream (F : FloatOps) (port : String → Nat → Nat) (t : Nat) :
    HwVal (after F hwCmds).view port 4 t ((port "u" t + (port "x" t / 8 * 8 + port "x" t * 2 % 8)) % 256) := by
  obtain ⟨v0, v1, v2, v3, v4⟩ := hw_views F
  have h0 := HwVal.input (V := (after F hwCmds).view) (inp := port) (n := 0) (k := t) (by rw [v0]) (by rw [v0])
  have h1 := HwVal.input (V := (after F hwCmds).view) (inp := port) (n := 1) (k := t) (by rw [v1]) (by rw [v1])
  rw [v0] at h0
  rw [v1] at h1
  have h2 : HwVal (after F hwCmds).view port 2 t (port "x" t / 8 * 8 + port "x" t * 2 % 8) := by
    refine .op (fun _ => port "x" t) (by omega) ?_ ?_
    · intro s hs
      rw [v2] at hs
      simp [NodeV.srcs] at hs
      subst hs; exact h1
    · rw [v2]; rfl
  refine .out (by rw [v4]) (s := 3) (by rw [v4]; rfl) ?_
  refine .op (fun s => if s = 0 then port "u" t else port "x" t / 8 * 8 + port "x" t * 2 % 8) (by omega) ?_ ?_
  · intro s hs
    rw [v3] at hs
    simp [NodeV.srcs] at hs
    rcases hs with rfl | rfl
    · exact h0
    · exact h2
  · rw [v3]
    simp only [NodeV.srcs, List.map_cons, List.map_nil, v0, v2, hwMeaning, hwArith]
    have hu : ∀ w n, numAs u8t.isSigned w n = n := fun w n => by simp [numAs, u8t, DFType.isSigned]
    simp only [hu, pattern]
    have e : width u8t = 8 := rfl
    have e' : width s4t = 4 := rfl
    rw [e, e']
    simp only [if_true, show (2 : Nat) = 0 ↔ False by decide, if_false, show max 8 4 = 8 by decide]
    congr 1
    omega

/-- There are such designs, and with `x = -1` and `u = 0` the output shows 14 for ever, not -2 = 254, on every design any of the passes
may produce. -/
theorem hw_compiled (F : FloatOps) (file : Option Config.JsonDoc) : (∃ cells size, Compiled (after F hwCmds) hwGraph file cells size) ∧
    ∀ cells size, Compiled (after F hwCmds) hwGraph file cells size → ∃ wire delay, ∀ oob reg, OobOK oob →
      ∀ σ, CircuitRun cells size (fun s _ => if s = "x" then 15 else 0) oob reg σ → ∀ t, σ wire (delay + t) = ⟨false, 8, 14⟩ := by
  obtain ⟨hh, hf, he⟩ := hw_finished F
  obtain ⟨v0, v1, v2, v3, v4⟩ := hw_views F
  refine ⟨?_, fun cells size hc => ?_⟩
  · obtain ⟨order, prog, h1, h2, h3⟩ := asap_compile_hw hh hf he file (hw_handled F _)
    obtain ⟨X, h4, -⟩ := h3 _ (List.Perm.refl _)
    exact ⟨_, _, .asap he h1 h2 (List.Perm.refl _) h4 (blk := List.range X.size) ⟨List.nodup_range, fun v => List.mem_range⟩⟩
  · obtain ⟨wire, delay, -, hr⟩ := compiled_hw hh hf (hw_handled F) (fun n hn => by
      rcases hw_nodes hn with rfl | rfl | rfl | rfl | rfl <;> simp [v0, v1, v2, v3, v4]) (hw_signs F) hc
    refine ⟨wire 4, delay 4, fun oob reg ho σ hs t => ?_⟩
    have hp : PortsOK (after F hwCmds).view hwGraph.nodes (fun s _ => if s = "x" then 15 else 0) := by
      refine ⟨fun n hn ho t => ?_, fun n hn ho hk t => ?_⟩
      · rcases hw_nodes hn with rfl | rfl | rfl | rfl | rfl
        · rw [v4] at ho; cases ho
        · rw [v3] at ho; cases ho
        · rw [v2] at ho; cases ho
        · rw [v1]; decide
        · rw [v0]; decide
      · rfl
    have := (hr _ oob reg hp ho).2 σ hs 4 (by decide) (by rw [v4]) t _ (hw_stream F _ t)
    rw [this, v4]
    rfl

end Verif.Flow
