import Verif.Flow.Props
/-
Non-vacuity of C58: the kernel `y = x + x` of `WorldExamples` (built with an instance).
-/
namespace Verif.Flow
open Verif.Dfcxx Verif.Hw Verif.Sched

theorem ex_views (F : FloatOps) : (after F exCmds).view 0 = ⟨.IN, .none, u8t, .stream, "x", []⟩ ∧
    (after F exCmds).view 4 = ⟨.ADD, .none, u8t, .stream, "", [(0, false), (0, false)]⟩ ∧
    (after F exCmds).view 5 = ⟨.OUT, .none, u8t, .stream, "y", [(4, true)]⟩ := ⟨rfl, rfl, rfl⟩

theorem ex_handled (F : FloatOps) (L : Nat → Nat) : Handled (after F exCmds).view L exGraph.nodes := by
  obtain ⟨v0, v4, v5⟩ := ex_views F
  have hn : ∀ n ∈ exGraph.nodes, n = 5 ∨ n = 0 ∨ n = 4 := by
    intro n hn
    have hn : n ∈ [5, 0, 4] := hn
    simpa using hn
  have hw : width u8t = 8 := rfl
  have hT : TypeOK u8t := ⟨by decide, by decide, by intro e f h; cases h⟩
  refine ⟨?_, ?_, ?_, ?_, ?_⟩
  · intro n h
    rcases hn n h with rfl | rfl | rfl
    · refine ⟨by rw [v5]; exact hT, ?_⟩
      rw [v5]; simp [NodeV.srcs, v4, SameHw]
    · refine ⟨by rw [v0]; exact hT, ?_⟩
      rw [v0]; trivial
    · refine ⟨by rw [v4]; exact hT, ?_⟩
      rw [v4]; simp only [NodeV.srcs, List.map_cons, List.map_nil]
      intro a b hab
      simp at hab
      obtain ⟨rfl, rfl⟩ := hab
      rw [v0]
      exact ⟨by simp, .inl (Nat.le_refl _), .inl (Nat.le_refl _), .inr ⟨rfl, rfl, rfl⟩⟩
  · intro n h k hk
    rcases hn n h with rfl | rfl | rfl
    · rw [v5] at hk; cases hk
    · rw [v0] at hk; cases hk
    · rw [v4] at hk; cases hk
  · intro n h
    rcases hn n h with rfl | rfl | rfl
    · rw [v5]; simp [NodeV.srcs]
    · rw [v0]; simp [NodeV.srcs]
    · rw [v4]; simp [NodeV.srcs]
  · intro n h s hs
    rcases hn n h with rfl | rfl | rfl
    · rw [v5] at hs; simp [NodeV.srcs] at hs; subst hs; rw [v4]; simp
    · rw [v0] at hs; simp [NodeV.srcs] at hs
    · rw [v4] at hs; simp [NodeV.srcs] at hs; subst hs; rw [v0]; simp
  · intro m hm n h _
    rcases hn m hm with rfl | rfl | rfl <;> rcases hn n h with rfl | rfl | rfl <;> simp [v0, v4, v5]

/-- The stream of the output: `y[t] = 2 x[t] mod 256`. -/
theorem ex_stream (F : FloatOps) (port : String → Nat → Nat) (t : Nat) :
    StreamVal (after F exCmds).view port 5 t ((2 * port "x" t) % 256) := by
  obtain ⟨v0, v4, v5⟩ := ex_views F
  refine .out (by rw [v5]) (s := 4) (by rw [v5]; rfl) ?_
  refine .op (fun _ => port "x" t) (by omega) ?_ ?_
  · intro s hs
    rw [v4] at hs
    simp [NodeV.srcs] at hs
    subst hs
    have := StreamVal.input (V := (after F exCmds).view) (inp := port) (n := 0) (k := t) (by rw [v0]) (by rw [v0])
    rwa [v0] at this
  · rw [v4]
    simp only [NodeV.srcs, List.map_cons, List.map_nil, v0, opMeaning]
    have hu : ∀ n, number u8t n = n := fun n => rfl
    rw [hu, pattern]
    have : width u8t = 8 := rfl
    rw [this]
    congr 1
    omega

/-- Every theorem above applies to the example: the design doubles its input, with some fixed delay, whatever its registers contain at
power-up, and it does run. -/
theorem ex_compiles (F : FloatOps) (file : Option Config.JsonDoc) :
    ∃ order prog X, TopSort.topSort ((after F exCmds).sortGraph exGraph) = .ok order ∧ buildBody (after F exCmds).view order = .ok prog ∧
      applySchedule (progOf prog) (buffersFor (progOf prog) (latOf file (opsOf prog)) (asap (progOf prog) (latOf file (opsOf prog))).time) = .ok X ∧
      ∃ wire delay : Nat, ∀ (x : Nat → Nat) (reg : Nat → Nat → Nat), (∀ t, x t < 256) →
        (∃ σ, CircuitRun (circuitOf (opsOf prog) X (latOf file (opsOf prog)) (List.range X.size)) X.size (fun _ => x)
          (fun _ alts => alts.headD ⟨false, 0, 0⟩) reg σ) ∧
        ∀ σ, CircuitRun (circuitOf (opsOf prog) X (latOf file (opsOf prog)) (List.range X.size)) X.size (fun _ => x)
          (fun _ alts => alts.headD ⟨false, 0, 0⟩) reg σ → ∀ t, σ wire (delay + t) = ⟨false, 8, 2 * x t % 256⟩ := by
  obtain ⟨hh, hf, he⟩ := ex_finished F
  obtain ⟨v0, v4, v5⟩ := ex_views F
  obtain ⟨order, prog, h1, h2, h3⟩ := asap_compile_computes hh hf he file (ex_handled F _)
  obtain ⟨X, h4, h5⟩ := h3 _ (List.Perm.refl _)
  obtain ⟨wire, delay, -, h7⟩ := h5 (List.range X.size) ⟨List.nodup_range, fun v => List.mem_range⟩
  refine ⟨order, prog, X, h1, h2, h4, wire 5, delay 5, fun x reg hx => ?_⟩
  have hn : ∀ n ∈ exGraph.nodes, n = 5 ∨ n = 0 ∨ n = 4 := by
    intro n hn
    have hn : n ∈ [5, 0, 4] := hn
    simpa using hn
  have hp : PortsOK (after F exCmds).view exGraph.nodes (fun _ => x) := by
    refine ⟨?_, ?_⟩
    · intro n h ho t
      rcases hn n h with rfl | rfl | rfl
      · rw [v5] at ho; cases ho
      · rw [v0]; exact hx t
      · rw [v4] at ho; cases ho
    · intro n h ho hk t
      rcases hn n h with rfl | rfl | rfl
      · rw [v5] at ho; cases ho
      · rw [v0] at hk; exact absurd rfl hk
      · rw [v4] at ho; cases ho
  have hob : OobOK (fun _ alts => alts.headD ⟨false, 0, 0⟩) := by
    intro s w c alts hne ha
    cases alts with
    | nil => exact absurd rfl hne
    | cons a l => exact ha a (by simp)
  obtain ⟨h8, h9⟩ := h7 (fun _ => x) (fun _ alts => alts.headD ⟨false, 0, 0⟩) reg hp hob
  refine ⟨h8, fun σ hr t => ?_⟩
  have := h9 σ hr 5 (by decide) (by rw [v5]) t _ (ex_stream F (fun _ => x) t)
  rw [this, v5]
  rfl

end Verif.Flow
