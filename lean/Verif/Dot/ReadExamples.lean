import Verif.Dot.Readable
import Verif.Dot.Examples
import Verif.Whole.Examples
/-
C88 on concrete kernels.
-/
namespace Verif.Dot
open Verif.Dfcxx
open Spec (DotStmt Picture isKeyword)

/-- The hypotheses of `dot_reads_partial` are met by the kernel of `ex_dot` (`y = x + x`, through an instance), under the time stamp of the example environment. -/
theorem ex_reads (F : FloatOps) : NamesUsable (after F exCmds) exGraph.nodes ∧ Usable "Twice" ∧ '\n' ∉ Whole.sampleEnv.time.toList ∧
    ∃ (ν : Nat → String) (ss : List DotStmt),
      Spec.read (dotText (after F exCmds) "Twice" Whole.sampleEnv.time [4, 5, 0]).toList = some ("Twice".toList, ss) ∧
      PictureOf (after F exCmds) ν [4, 5, 0] (Spec.picture ss) ∧ ν 5 = "y" ∧ ν 0 = "x" := by
  obtain ⟨h1, h2, h3, h4, -, h5, h6⟩ := ex_dot F
  have hk : Usable "Twice" := ⟨⟨'T', "wice".toList, by decide, by decide, by decide⟩, by decide⟩
  have ht : '\n' ∉ Whole.sampleEnv.time.toList := by
    show '\n' ∉ "1-1-1970 0:0:0".toList
    decide
  have hx : Usable "x" := ⟨⟨'x', [], by decide, by decide, by decide⟩, by decide⟩
  have hy : Usable "y" := ⟨⟨'y', [], by decide, by decide, by decide⟩, by decide⟩
  have hn : NamesUsable (after F exCmds) exGraph.nodes := by
    refine ⟨fun n hn he => ?_, h5, h6⟩
    have hn : n ∈ [5, 0, 4] := hn
    simp only [List.mem_cons, List.not_mem_nil, or_false] at hn
    rcases hn with rfl | rfl | rfl
    · exact hy
    · exact hx
    · exact absurd rfl he
  obtain ⟨ν, ss, r1, r2, r3⟩ := dot_reads_partial h1 h2 h3 h4 hk ht hn
  exact ⟨hn, hk, ht, ν, ss, r1, r2, r3 5 (by decide) (show "y" ≠ "" by decide), r3 0 (by decide) (show "x" ≠ "" by decide)⟩

set_option maxRecDepth 20000 in
/-- Its picture, computed: the specification reader on the text of the example of C65. -/
theorem demo_read (F : FloatOps) : (Spec.read (dotText (after F (demo "x")) "K" "1-2-2025 3:4:5" [1, 0]).toList).map (fun r => (Spec.picture r.2).edges.map fun e => (e.1, e.2.1, Spec.value e.2.2 "label")) =
    some [("x".toList, "node0".toList, some "0".toList)] := by
  rw [demo_text]; decide +kernel

set_option maxRecDepth 20000 in
/-- A port called `Edge` (in any case of letters), or a kernel called `Graph`: not DOT. -/
theorem demo_reserved (F : FloatOps) :
    Spec.read (dotText (after F (demo "Edge")) "K" "1-2-2025 3:4:5" [1, 0]).toList = none ∧
    Spec.read (dotText (after F (demo "x")) "Graph" "1-2-2025 3:4:5" [1, 0]).toList = none := by
  have e1 : dotText (after F (demo "Edge")) "K" "1-2-2025 3:4:5" [1, 0] =
      "// This file has been automatically generated by Utopia HLS at 1-2-2025 3:4:5.\ndigraph K {\n  " ++
      "node0 [shape=diamond, label=\"-1\"]\n  Edge -> node0 [label=\"0\"]\n  \n  Edge [shape=invtriangle, label=\"Edge\"]\n  \n  \n}\n" := rfl
  have e2 : dotText (after F (demo "x")) "Graph" "1-2-2025 3:4:5" [1, 0] =
      "// This file has been automatically generated by Utopia HLS at 1-2-2025 3:4:5.\ndigraph Graph {\n  " ++
      "node0 [shape=diamond, label=\"-1\"]\n  x -> node0 [label=\"0\"]\n  \n  x [shape=invtriangle, label=\"x\"]\n  \n  \n}\n" := rfl
  rw [e1, e2]
  constructor <;> decide +kernel

set_option maxRecDepth 20000 in
/-- The collision of names of C65, read: the picture has two nodes for the three of the kernel, and an arrow from a node to itself. -/
theorem collision_read (F : FloatOps) : (Spec.read (dotText (after F (demo "node0")) "K" "1-2-2025 3:4:5" [2, 1, 0]).toList).map
    (fun r => ((Spec.picture r.2).nodes.map Prod.fst, (Spec.picture r.2).edges.map fun e => (e.1, e.2.1))) =
    some (["y".toList, "node0".toList], [("node0".toList, "y".toList), ("node0".toList, "node0".toList)]) := by
  have e : dotText (after F (demo "node0")) "K" "1-2-2025 3:4:5" [2, 1, 0] =
      "// This file has been automatically generated by Utopia HLS at 1-2-2025 3:4:5.\ndigraph K {\n  " ++
      "y [shape=triangle, label=\"y\"]\n  node0 -> y [label=\"0\"]\n  \n  node0 [shape=diamond, label=\"-1\"]\n  node0 -> node0 [label=\"0\"]\n  \n  " ++
      "node0 [shape=invtriangle, label=\"node0\"]\n  \n  \n}\n" := rfl
  rw [e]
  decide +kernel

end Verif.Dot
