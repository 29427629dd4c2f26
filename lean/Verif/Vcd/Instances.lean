import Verif.Vcd.Kernels
import Verif.Flat.SimNever
import Verif.Kernels.Chain
/-
C77, C79, continued: kernels with instances, and the Galois multipliers, in simulation.
-/
namespace Verif.Kernels
open Verif.Dfcxx Verif.Flow

/-- The inputs of a finished kernel are those of its contract. -/
theorem Contract.inputs {F : FloatOps} {Z : String → Prop} {C : World → Prop} {p : Build Unit} {ins : List (String × Nat)} {out : String} {k : Nat}
    {f : List Pat → BitVec k} (hc : Contract F Z C p ins out k f) (hC : C World.init) {w : World} {g : KGraph} (hp : p World.init = .ok ((), w))
    (hf : Finished w g) : ∀ n ∈ g.nodes, (w.view n).op = .IN → ((w.view n).name, Flow.width (w.view n).ty) ∈ ins := by
  obtain ⟨w', ps, ns, o, s, h1, h2, h3, h4, h5, h6, h7, h8, h9⟩ := hc.run [] World.init good_init rfl hC
  rw [hp] at h1
  cases h1
  have hsh : shape w = [(0, ps)] := by
    rw [h3.shape]
    show [(0, ps ++ [])] = _
    rw [List.append_nil]
  have hnm : g.names = ps := by
    unfold shape at hsh
    rw [hf.only] at hsh
    simp only [List.map_cons, List.map_nil, List.cons.injEq, Prod.mk.injEq, and_true] at hsh
    exact hsh.2
  intro n hn ho
  have hl := h2.ported g (by rw [hf.only]; simp) n hn (.inl ho)
  rw [hnm] at hl
  obtain ⟨l1, l2, e, -⟩ := List.lookup_eq_some_iff.mp hl
  rcases h5 ((w.node n).name, n) (by rw [e]; simp) with e1 | e1
  · simp only at e1
    rw [e1, h6] at hl
    have e3 : o = n := Option.some.inj hl
    rw [← e3, show (w.view o).op = .OUT from h7] at ho
    cases ho
  · obtain ⟨i, hi, e2⟩ := List.mem_map.mp e1
    obtain ⟨m, -, q1, q2, q3, q4⟩ := forall₂_mem_left h4 i hi
    simp only at e2
    rw [e2, hl] at q1
    cases q1
    have : ((w.view n).name, Flow.width (w.view n).ty) = i := Prod.ext e2.symm q3
    rw [this]; exact hi

end Verif.Kernels

namespace Verif.Vcd
open Verif.Dfcxx Verif.Flow Verif.Driver Verif.Cli Verif.Flat Verif.Kernels

variable {F : FloatOps}

/-- The output of a contract. -/
def contractOut (ins : List (String × Nat)) (out : String) (k : Nat) (f : List Pat → BitVec k) : OutPort :=
  ⟨out, k, false, 0, fun port t => f (ins.map fun i => (i.2, port i.1 t))⟩

theorem Contract.facts {Z : String → Prop} {C : World → Prop} {p : Build Unit} {ins : List (String × Nat)} {out : String} {k : Nat}
    {f : List Pat → BitVec k} (hc : Contract F Z C p ins out k f) (hC : C World.init) :
    ∃ w g, p World.init = .ok ((), w) ∧ Hist F Proper World.init w ∧ Finished w g ∧
      (∀ n ∈ g.nodes, (w.view n).op = .IN → ((w.view n).name, Flow.width (w.view n).ty) ∈ ins) ∧
      (∀ port, Fits ins port → PortsOK w.view g.nodes port) ∧ OutIs ins w g (contractOut ins out k f) := by
  obtain ⟨w, g, o, e1, e2, e3, e4, -, e6, -, e8, -, e10, e11⟩ := hc.built hC
  refine ⟨w, g, e1, e2, e3, hc.inputs hC e1 e3, fun port hF => (e11 port hF).1, o, e6, e8, e10, fun port hF t _ => ?_⟩
  obtain ⟨order, s1, s2, s3, s4, s5⟩ := finished_kernel_is_processable e2 e3 sortGraph_enum
  exact hwVal_of_streamVal (order := g.nodes) (fun n hn s hs => s2.mem_iff.mp (srcs_in_order s3 (s2.mem_iff.mpr hn) hs).1)
    (fun n hn t vals r _ _ hr => supported_agree ((e4 fun _ => 0).supp n hn) vals hr) ((e11 port hF).2 t) e6

theorem Contract.simulates {Z : String → Prop} {C : World → Prop} {p : Build Unit} {ins : List (String × Nat)} {out : String} {k : Nat}
    {f : List Pat → BitVec k} (hc : Contract F Z C p ins out k f) (hC : C World.init) (hp : plainCode p = true) (hn : out ≠ "") :
    Simulates F p ins [contractOut ins out k f] := by
  obtain ⟨w, g, h1, h2, h3, h4, h5, h6⟩ := Contract.facts hc hC
  exact plain_simulates h1 h2 h3 hp h4 h5 (fun o ho => List.mem_singleton.mp ho ▸ h6) (fun o ho => List.mem_singleton.mp ho ▸ hn)

theorem Contract.simTool {Z : String → Prop} {C : World → Prop} {p : Build Unit} {ins : List (String × Nat)} {out : String} {k : Nat}
    {f : List Pat → BitVec k} (hc : Contract F Z C p ins out k f) (hC : C World.init) (hp : plainCode p = true) (hq : wordsOK p = true) (hn : out ≠ "") :
    ToolSimulates F p ins [contractOut ins out k f] := by
  obtain ⟨w, g, h1, h2, h3, h4, h5, h6⟩ := Contract.facts hc hC
  exact plain_simTool h1 h2 h3 hp hq h4 h5 (fun o ho => List.mem_singleton.mp ho ▸ h6) (fun o ho => List.mem_singleton.mp ho ▸ hn)

/-- `Polynomial2Inst`, a kernel with an instance, in simulation: x² + 2x. -/
theorem polynomial2Inst_simulates : Simulates F (polynomial2Inst F) [("x", 32)]
    [out32 "out" fun port t => at32 port "x" t ^ 2 + 2 * at32 port "x" t] :=
  Contract.simulates (polynomial2Inst_contract (F := F)) trivial rfl (by decide)

/-- `Polynomial2Inst` in `sim` mode. -/
theorem polynomial2Inst_sim : ToolSimulates F (polynomial2Inst F) [("x", 32)]
    [out32 "out" fun port t => at32 port "x" t ^ 2 + 2 * at32 port "x" t] :=
  Contract.simTool (polynomial2Inst_contract (F := F)) trivial rfl rfl (by decide)

open Lean Elab Tactic in
/-- `Galois8Mul` contains bit ranges.  (By `Eq.refl`, as `Flat.rowIdct_unsupported`.) -/
theorem galois8Mul_unsupported : hasUnsupported (galois8Mul F) = true := by
  run_tac do (← getMainGoal).assign (mkApp2 (mkConst ``Eq.refl [1]) (mkConst ``Bool) (mkConst ``true))

/-- `Galois8Mul` cannot be simulated: the simulator has no bit ranges. -/
theorem galois8Mul_never : NeverSimulates F (galois8Mul F) := by
  obtain ⟨w, g, h1, h2, h3, -⟩ := Contract.facts (galois8Mul_contract (F := F) (Z := onlyLeft) (by simp [onlyLeft])) trivial
  have hu := galois8Mul_unsupported (F := F)
  unfold hasUnsupported at hu
  rw [h1] at hu
  simp only [h3.only, List.all_cons, List.all_nil, Bool.and_true, List.any_eq_true, decide_eq_true_eq] at hu
  obtain ⟨n, hn, ho⟩ := hu
  exact never_of h1 h2 h3 hn (.inl (.inl ho))

end Verif.Vcd
