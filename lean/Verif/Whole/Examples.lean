import Verif.Whole.Kernels
import Verif.Cli.Examples
import Verif.Ieee.Machine
/-
Concrete cases for C78.
-/
namespace Verif.Whole
open Verif.Dfcxx Verif.Flow Verif.Sched Verif.Driver Verif.Cli.Spec

open Classical in
/-- An environment: sets enumerated in order of insertion, a solver that answers an optimal vertex if there is one, IEEE arithmetic; every file can
be opened, CIRCT accepts everything and changes nothing. -/
noncomputable def sampleEnv : Env Unit where
  graph w g := w.sortGraph g
  dotNodes _ g := g.nodes
  bufOrder := id
  solve st := if h : ∃ x, Optimal st x ∧ Extreme st x then .solved h.choose else .failed
  arith := Ieee.single
  time := "1-1-1970 0:0:0"
  printFirrtl _ _ := "firrtl"
  printLater _ := "hw"
  stubs _ _ := "stubs"
  circt := [some]
  exportVerilog _ := some "verilog"
  firrtlOK _ _ := true
  laterOK _ := true
  canOpen _ := true
  config p := if p = "~/utopia-user/config.json" then some ⟨[], some [("ADD_INT", 1), ("MUL_INT", 3)]⟩ else none

/-- Environments as assumed exist. -/
theorem sampleEnv_fair (w : World) (g : KGraph) : sampleEnv.Fair w g where
  graph := sortGraph_enum
  dot := .refl _
  buf _ := .refl _
  solve st h := ⟨h.choose, by simp [sampleEnv, h], h.choose_spec⟩
  arith := Ieee.single_sane

/-- The command line of the documentation (README.md:203) is one of those considered. -/
theorem readme_line : Line sampleEnv.canOpen Cli.readmeItems Cli.readmeArgs where
  writes := Cli.readme_writes
  valid := Cli.readme_valid
  noHelp := by decide
  distinct := by
    intro f g v w h1 h2 e
    simp only [Cli.readmeItems, List.mem_cons, List.not_mem_nil, or_false, reduceCtorEq, false_or, Item.out.injEq] at h1 h2
    rcases h1 with ⟨rfl, rfl⟩ | ⟨rfl, rfl⟩ <;> rcases h2 with ⟨rfl, rfl⟩ | ⟨rfl, rfl⟩ <;> first | rfl | (exact absurd e (by decide))
  opens := fun _ _ _ => rfl

/-- The run the documentation describes, of the tool linked with the kernel `Polynomial2`: it ends with exit code 0, the SystemVerilog file holds what
CIRCT exports, and the design computes x² + 2x. -/
example (F : FloatOps) (fs : Files) : ∃ w g cells size fs', Flat.polynomial2 F World.init = .ok ((), w) ∧
    tool sampleEnv (fun _ => none) ⟨none, none⟩ (fun _ _ fs => .ok (0, fs)) "Polynomial2" w g ("hls" :: Cli.readmeArgs) fs = .ok (0, fs') ∧
    fs' "~/outFile.sv" = some "verilog" ∧
    Flat.ShowsAll cells size [("x", 32)] [Flat.out32 "out" fun port t => Flat.at32 port "x" t ^ 2 + 2 * Flat.at32 port "x" t] := by
  obtain ⟨w, g, h1, -, h2⟩ := polynomial2_tool (F := F)
  obtain ⟨cells, size, code, fs', r1, r2, r3⟩ := h2 Unit sampleEnv (fun _ => none) ⟨none, none⟩ (fun _ _ fs => .ok (0, fs)) "Polynomial2" _ _ fs
    (sampleEnv_fair w g) readme_line (.inl (by decide)) (by simp)
  have he : exported sampleEnv cells size = some "verilog" := rfl
  have hc : code = 0 := r2.success.mpr ⟨rfl, fun _ => by rw [he]; rfl⟩
  subst hc
  exact ⟨w, g, cells, size, fs', h1, r1, r2.verilog rfl _ he (some "~/outFile.sv") (by decide), r3⟩

/-- The configuration named is the one read. -/
example : Configured sampleEnv.config Cli.readmeItems (some ⟨[], some [("ADD_INT", 1), ("MUL_INT", 3)]⟩) :=
  Configured.given (read := sampleEnv.config) (v := some "~/utopia-user/config.json") (by decide) (by decide)

/-- No scheduler option. -/
example : Pipelined [.out .FIRRTL none] 0 := .absent (by decide) (by decide) (by simp)
example : Pipelined [.out .FIRRTL none, .pipeline (some "3")] 3 := .number (v := "3") (by simp) Cli.three

theorem firrtl_line : Line sampleEnv.canOpen [.out .FIRRTL none] ["--out-firrtl"] where
  writes := .cons (.out (by decide) .bare) .nil
  valid :=
    { given := ⟨by decide, by decide, fun f _ => by cases f <;> decide, fun v h => by simp at h⟩
      asap := fun h => by simp at h
      linear := fun h => by simp at h
      output := ⟨.FIRRTL, none, by simp⟩
      known := fun t h => by simp at h }
  noHelp := by decide
  distinct := by
    intro f g v w h1 h2 _
    simp only [List.mem_singleton, Item.out.injEq] at h1 h2
    rw [h1.1, h2.1]
  opens := fun _ _ _ => rfl

/-- `umain hls --out-firrtl` with the kernel `MovingSum`: exit code 1, and `firrtl.mlir` is empty. -/
example (F : FloatOps) (fs : Files) : ∃ w g fs', Flat.movingSum F World.init = .ok ((), w) ∧
    tool sampleEnv (fun _ => none) ⟨none, none⟩ (fun _ _ fs => .ok (0, fs)) "MovingSum" w g ["hls", "--out-firrtl"] fs = .ok (1, fs') ∧
    fs' "firrtl.mlir" = some "" := by
  obtain ⟨w, g, h1, -, h2⟩ := movingSum_needs_a_scheduler (F := F)
  obtain ⟨fs', r1, r2⟩ := h2 Unit sampleEnv (fun _ => none) ⟨none, none⟩ (fun _ _ fs => .ok (0, fs)) "MovingSum" _ _ fs
    (sampleEnv_fair w g) firrtl_line (.absent (by decide) (by decide) (by simp))
  exact ⟨w, g, fs', h1, r1, r2 .FIRRTL (.inl rfl) none (by simp)⟩

end Verif.Whole
