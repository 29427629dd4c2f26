import Verif.Sdf.Kernels
import Verif.Text.Examples
/-
C81, a concrete case: `MovingSum` of /repo/examples with additions of two stages, scheduled by ASAP.
-/
namespace Verif.Sdf
open Verif.Dfcxx Verif.Flow Verif.Sched Verif.Text

/-- A latency configuration: integer additions take two cycles. -/
def adds2 : Option Config.JsonDoc := some ⟨[], some [("ADD_INT", 2)]⟩

/-- The scheduled kernel: the two offsets have become a buffer each, of one and three cycles. -/
def movingSumScheduled : List Char :=
  chars! "module {\n" ++
  chars! "  dfcir.kernel \"MovingSum\" {\n" ++
  chars! "    %0 = dfcir.input<!dfcir.fixed<false, 32, 0>> (\"x\")\n" ++
  chars! "    %1 = dfcir.latency[1 : i32] (%0 : !dfcir.stream<!dfcir.fixed<false, 32, 0>>) : !dfcir.stream<!dfcir.fixed<false, 32, 0>> {latency = 1 : i32}\n" ++
  chars! "    %2 = dfcir.add[2 : i32] (%1 : !dfcir.stream<!dfcir.fixed<false, 32, 0>>, %0 : !dfcir.stream<!dfcir.fixed<false, 32, 0>>) : !dfcir.stream<!dfcir.fixed<false, 32, 0>> {latency = 2 : i32}\n" ++
  chars! "    %3 = dfcir.latency[1 : i32] (%0 : !dfcir.stream<!dfcir.fixed<false, 32, 0>>) : !dfcir.stream<!dfcir.fixed<false, 32, 0>> {latency = 1 : i32}\n" ++
  chars! "    %4 = dfcir.add[2 : i32] (%2 : !dfcir.stream<!dfcir.fixed<false, 32, 0>>, %3 : !dfcir.stream<!dfcir.fixed<false, 32, 0>>) : !dfcir.stream<!dfcir.fixed<false, 32, 0>> {latency = 2 : i32}\n" ++
  chars! "    %5 = dfcir.output<!dfcir.fixed<false, 32, 0>> (\"out\") {operandSegmentSizes = array<i32: 0, 0>}\n" ++
  chars! "    dfcir.connect(%5 : !dfcir.stream<!dfcir.fixed<false, 32, 0>>, %4 : !dfcir.stream<!dfcir.fixed<false, 32, 0>>)\n" ++
  chars! "  }\n" ++
  chars! "}\n"

/-- The text printed for a block after ASAP scheduling, buffers inserted in the order of the channels. -/
def asapText (name : String) (file : Option Config.JsonDoc) (prog : List DStmt) : Option (List Char) :=
  let lat := latOf file (opsOf prog)
  let bs := buffersFor (progOf prog) lat (asap (progOf prog) lat).time
  match applySchedule (progOf prog) bs with
  | .ok X => schedText name prog bs X lat
  | .error _ => none

set_option maxRecDepth 20000 in
/-- The model prints that text. -/
theorem movingSum_scheduled (F : FloatOps) : ∃ w prog, World.init.run F movingSum = .ok w ∧ buildBody w.view [0, 2, 1, 3, 4, 5] = .ok prog ∧
    asapText "MovingSum" adds2 prog = some movingSumScheduled := by
  refine ⟨_, _, rfl, rfl, ?_⟩
  decide +kernel

/-- The passes have results for every kernel considered: here ASAP, for the kernel of the example, with buffers that fit. -/
theorem movingSum_pass (F : FloatOps) : ∃ w g, Flat.movingSum F World.init = .ok ((), w) ∧ Finished w g ∧
    ∃ prog bs X att, Pass w g adds2 true prog bs X att ∧ ∀ p ∈ bs, p.2 < 2 ^ 31 := by
  obtain ⟨u, w, e, hg, -, -⟩ := Flat.movingSum_does (F := F)
  obtain ⟨g, hf⟩ := hg.finished
  have H := hg.handled_file hf adds2 (by intro h; cases h)
  obtain ⟨order, prog, h1, h2, h3⟩ := asap_compile_hw hg.hist hf sortGraph_enum adds2 H
  obtain ⟨X, h4, -⟩ := h3 _ (List.Perm.refl _)
  have hp := Pass.asap (file := adds2) sortGraph_enum h1 h2 (List.Perm.refl _) h4
  exact ⟨w, g, e, hf, prog, _, X, _, hp, hp.fits hg.hist hf H.offs (movingSum_modest e hf)⟩

end Verif.Sdf
