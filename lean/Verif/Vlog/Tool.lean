import Verif.Vlog.Circuit
import Verif.Whole.Props
/-
C80 for the tool: what is in the file named by `--out-sv-lib`.
-/
namespace Verif.Vlog
open Verif.Hw Verif.Flow Verif.Dfcxx Verif.Sched Verif.Driver Verif.Cli.Spec Verif.Whole
open Verif.Config (Format)

/-- The text of the library is what the generator writes for the external modules of the circuit, in the order in which they stand there. -/
def WritesLibrary {C : Type} (E : Env C) : Prop :=
  '\n' ∉ E.time.toList ∧ ∀ cells size, (∃ ms, ModulesOf cells size ms) →
    ∃ ms, ModulesOf cells size ms ∧ E.stubs cells size = String.ofList (libText ms E.time.toList)

/-- The file holds Verilog modules with different names, and the runs of the circuit with these modules are its runs. -/
def HoldsLibrary (fs : Files) (path : String) (cells : Nat → Cell) (size : Nat) : Prop :=
  ∃ text as, fs path = some text ∧ read text.toList = some as ∧ (as.map Mod.name).Nodup ∧ ∀ port oob σ,
    LibRun as cells size port oob σ ↔ ∃ reg, CircuitRun cells size port oob reg σ

section
variable {C : Type} {F : FloatOps} {w : World} {g : KGraph} {E : Env C} {name : String} {is : List Cli.Spec.Item} {fs fs' : Files} {file : Option Config.JsonDoc}
  {cells : Nat → Cell} {size code : Nat}

theorem shape_library {L : Nat → Nat} (H : HwHandled w.view L g.nodes) (hE : WritesLibrary E) (hs : Shape w g cells size) (hl : Bounded cells size)
    (hd : Delivered E name w g is fs cells size code fs') (hok : E.firrtlOK cells size = true) {v : Option String} (hv : Item.out .SVLibrary v ∈ is) :
    HoldsLibrary fs' (v.getD (outDefault .SVLibrary)) cells size := by
  obtain ⟨ms, hm, e⟩ := hE.2 cells size (shape_modules hs)
  obtain ⟨as, h1, h2, h3⟩ := library_runs hm (shape_fit H hs hm hl) hE.1
  refine ⟨_, as, hd.library hok v hv, ?_, h2, h3⟩
  rw [e, String.toList_ofList]
  exact h1

/-- **C80, the tool.**  What a run of the tool with `-a` or `-l` (see `tool_schedules`) leaves in the file named by `--out-sv-lib`. -/
theorem tool_library_scheduled (h : Hist F Proper World.init w) (hf : Finished w g) {L : Nat → Nat} (H : HwHandled w.view L g.nodes) (hE : WritesLibrary E)
    (hc : Scheduled w g file cells size) (hl : Bounded cells size) (hd : Delivered E name w g is fs cells size code fs') (hok : E.firrtlOK cells size = true)
    {v : Option String} (hv : Item.out .SVLibrary v ∈ is) : HoldsLibrary fs' (v.getD (outDefault .SVLibrary)) cells size :=
  shape_library H hE (scheduled_shape h hf H hc) hl hd hok hv

/-- **C80, the tool.**  The same with `--pipeline` or without scheduler option (see `tool_pipelines`). -/
theorem tool_library_compiled (h : Hist F Proper World.init w) (hf : Finished w g) {L : Nat → Nat} (H : HwHandled w.view L g.nodes)
    (hof : ∀ n ∈ g.nodes, (w.view n).op ≠ .OFFSET) (hE : WritesLibrary E) (hc : Compiled w g file cells size) (hl : Bounded cells size)
    (hd : Delivered E name w g is fs cells size code fs') (hok : E.firrtlOK cells size = true) {v : Option String} (hv : Item.out .SVLibrary v ∈ is) :
    HoldsLibrary fs' (v.getD (outDefault .SVLibrary)) cells size :=
  shape_library H hE (compiled_shape h hf H hof hc) hl hd hok hv

end

/-- There are generators of this kind. -/
theorem writesLibrary_exists {C : Type} (E : Env C) : ∃ E' : Env C, WritesLibrary E' ∧ E'.firrtlOK = E.firrtlOK ∧ E'.canOpen = E.canOpen := by
  classical
  refine ⟨{ E with time := "now", stubs := fun cells size => if h : ∃ ms, ModulesOf cells size ms then String.ofList (libText h.choose "now".toList) else "" },
    ⟨show '\n' ∉ "now".toList by decide, fun cells size h => ⟨h.choose, h.choose_spec, ?_⟩⟩, rfl, rfl⟩
  exact dif_pos h

end Verif.Vlog
