import Verif.Dot.Props
import Verif.Dfcxx.WorldExamples
/-
C65 on concrete kernels: a non-trivial one that meets the hypotheses, and the collision they exclude.
-/
namespace Verif.Dot
open Verif.Dfcxx

/-- The kernel of `ex_finished` (an instance computing `y = x + x`), enumerated in an order in which an operand comes after its
reader: the hypotheses of `dot_draws_the_kernel` are met, names included, and this is the body. -/
theorem ex_dot (F : FloatOps) :
    Hist F WellUsed World.init (after F exCmds) ∧ (after F exCmds).stack = [exGraph] ∧ (after F exCmds).check exGraph = true ∧
    [4, 5, 0].Perm exGraph.nodes ∧
    dotStmts (after F exCmds) [4, 5, 0] =
      [.elem "node0" "box" "+", .conn "x" "node0" "0", .conn "x" "node0" "1", .elem "y" "triangle" "y", .conn "node0" "y" "0",
       .elem "x" "invtriangle" "x"] ∧
    (∀ n ∈ exGraph.nodes, ∀ m ∈ exGraph.nodes, ((after F exCmds).node n).name ≠ "" →
      ((after F exCmds).node n).name = ((after F exCmds).node m).name → n = m) ∧
    ∀ n ∈ exGraph.nodes, ¬ Invented ((after F exCmds).node n).name := by
  obtain ⟨h, hf, -⟩ := ex_finished F
  refine ⟨h.mono fun _ _ hp => hp.1, hf.only, hf.check, by decide, rfl, ?_, ?_⟩
  · intro n hn m hm h1 h2
    have hn : n ∈ [5, 0, 4] := hn
    have hm : m ∈ [5, 0, 4] := hm
    simp only [List.mem_cons, List.not_mem_nil, or_false] at hn hm
    have e5 : ((after F exCmds).node 5).name = "y" := rfl
    have e0 : ((after F exCmds).node 0).name = "x" := rfl
    have e4 : ((after F exCmds).node 4).name = "" := rfl
    rcases hn with rfl | rfl | rfl <;> rcases hm with rfl | rfl | rfl <;>
      first | rfl | (exfalso; simp [e5, e0, e4] at h1 h2)
  · intro n hn ⟨k, hk⟩
    have hk := congrArg String.toList hk
    rw [String.toList_append] at hk
    have hk := congrArg List.head? hk
    have e : ("node".toList ++ (toString k).toList).head? = some 'n' := rfl
    rw [e] at hk
    have hn : n ∈ [5, 0, 4] := hn
    simp only [List.mem_cons, List.not_mem_nil, or_false] at hn
    rcases hn with rfl | rfl | rfl
    · have hk : "y".toList.head? = some 'n' := hk
      exact absurd hk (by decide)
    · have hk : "x".toList.head? = some 'n' := hk
      exact absurd hk (by decide)
    · have hk : "".toList.head? = some 'n' := hk
      exact absurd hk (by decide)

/-- A kernel `y = x[-1]` whose input is called `name`. -/
def demo (name : String) : List Cmd :=
  [.input false name u8t, .offset 0 (-1), .output false "y" u8t, .connect 2 1]

/-- **The collision.**  An input may be called `node0`; the tool then gives the same identifier to another node, here the offset: in the
drawing it reads itself. -/
theorem dot_name_collision (F : FloatOps) :
    dotStmts (after F (demo "node0")) [2, 1, 0] =
      [.elem "y" "triangle" "y", .conn "node0" "y" "0", .elem "node0" "diamond" "-1", .conn "node0" "node0" "0",
       .elem "node0" "invtriangle" "node0"] := rfl

set_option maxRecDepth 20000 in
/-- The same kernel with another name, as text. -/
theorem demo_text (F : FloatOps) :
    dotText (after F (demo "x")) "K" "1-2-2025 3:4:5" [1, 0] =
      "// This file has been automatically generated by Utopia HLS at 1-2-2025 3:4:5.\ndigraph K {\n  " ++
      "node0 [shape=diamond, label=\"-1\"]\n  x -> node0 [label=\"0\"]\n  \n  x [shape=invtriangle, label=\"x\"]\n  \n  \n}\n" := rfl

end Verif.Dot
