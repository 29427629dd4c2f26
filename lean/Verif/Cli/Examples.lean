import Verif.Cli.Findings
/-
Concrete command lines for the theorems of this directory.
-/
namespace Verif.Cli
open Verif.Config Verif.Driver Spec

/-- README.md:203: the example of the documentation. -/
def readmeItems : List Item :=
  [.config (some "~/utopia-user/config.json"), .out .SystemVerilog (some "~/outFile.sv"), .out .UnscheduledDFCIR (some "~/outFile2.mlir"), .asap]

def readmeArgs : List String :=
  ["--config", "~/utopia-user/config.json", "--out-sv", "~/outFile.sv", "--out-dfcir", "~/outFile2.mlir", "-a"]

theorem readme_writes : WritesAll readmeItems readmeArgs :=
  .cons (.config (.next (by unfold Plain; decide))) (.cons (.out (by decide) (.next (by unfold Plain; decide)))
    (.cons (.out (by decide) (.next (by unfold Plain; decide))) (.cons .asap .nil)))

theorem readme_valid : Valid Decimal readmeItems where
  given := ⟨by decide, by decide, fun f _ => by cases f <;> decide, fun v h => by simp [readmeItems] at h⟩
  asap := fun _ => ⟨by decide, fun v h => by simp [readmeItems] at h⟩
  linear := fun h => by simp [readmeItems] at h
  output := ⟨.SystemVerilog, _, by simp [readmeItems]; rfl⟩
  known := fun t h => by simp [readmeItems] at h

/-- The theorem applies to the documentation's example... -/
example (b : String → Option Bool) (cfg : SimConfig) :
    ∃ config o, commandLine b cfg ("hls" :: readmeArgs) = .hls config o ∧ Means Decimal readmeItems config o :=
  documented_runs b cfg readme_writes readme_valid (by decide)

/-- ... and this is what it says about it. -/
theorem readme_runs (b : String → Option Bool) (cfg : SimConfig) :
    commandLine b cfg ("hls" :: readmeArgs) =
      .hls "~/utopia-user/config.json" ⟨.asap, 0, ["~/outFile.sv", "", "~/outFile2.mlir", "", "", ""]⟩ := by
  unfold commandLine
  rw [run_hls readme_writes]
  rfl

/-- README.md:226. -/
example (b : String → Option Bool) (cfg : SimConfig) :
    commandLine b cfg ["hls", "--config", "examples/polynomial2/add_int_2_mul_int3.json", "-a", "--out-sv", "output"] =
      .hls "examples/polynomial2/add_int_2_mul_int3.json" ⟨.asap, 0, ["output", "", "", "", "", ""]⟩ := by
  unfold commandLine
  rw [run_hls (is := [.config (some "examples/polynomial2/add_int_2_mul_int3.json"), .asap, .out .SystemVerilog (some "output")])
    (ls := ["--config", "examples/polynomial2/add_int_2_mul_int3.json", "-a", "--out-sv", "output"])
    (.cons (.config (.next (by unfold Plain; decide))) (.cons .asap (.cons (.out (by decide) (.next (by unfold Plain; decide))) .nil)))]
  rfl

/-- README.md:236. -/
example (b : String → Option Bool) (cfg : SimConfig) :
    commandLine b cfg ["sim", "--in", "examples/polynomial2/sim.txt", "--out", "output.vcd"] =
      .sim "examples/polynomial2/sim.txt" "output.vcd" := by
  have h : WritesSim [.inp (some "examples/polynomial2/sim.txt"), .out (some "output.vcd")]
      ["--in", "examples/polynomial2/sim.txt", "--out", "output.vcd"] :=
    .inp (.next (by unfold Plain; decide)) (.out (.next (by unfold Plain; decide)) .nil)
  rw [sim_documented b cfg h]
  rfl

/-- With the configuration file of the repository `sim` alone reads `sim.txt` and writes `sim_out.vcd`. -/
example (b : String → Option Bool) : commandLine b ⟨some "sim.txt", some "sim_out.vcd"⟩ ["sim"] = .sim "sim.txt" "sim_out.vcd" := by
  rw [sim_documented b _ .nil]
  rfl

/-- Two schedulers. -/
def twoSchedulers : List Item := [.asap, .pipeline (some "3"), .out .DOT none]

theorem three : Decimal "3" 3 := ⟨by decide, by decide⟩

theorem twoSchedulers_refused (b : String → Option Bool) (cfg : SimConfig) :
    commandLine b cfg ["hls", "-a", "--pipeline", "3", "--out-dot"] = .stop .error :=
  undocumented_refused b cfg (is := twoSchedulers)
    (.cons .asap (.cons (.pipeline (.next (by unfold Plain; decide))) (.cons (.out (by decide) .bare) .nil)))
    (fun v h => by
      simp only [twoSchedulers, List.mem_cons, List.not_mem_nil, or_false, reduceCtorEq, false_or, Item.pipeline.injEq, Option.some.injEq] at h
      exact .inl ⟨3, h ▸ three⟩)
    (fun h => (h.asap (by simp [twoSchedulers])).2 (some "3") (by simp [twoSchedulers]))
    (by decide)

/-- `++` is the value of `--pipeline`: not a number, so the line is refused (it is not the end of the subcommand). -/
theorem pipeline_plus_refused (b : String → Option Bool) (cfg : SimConfig) :
    commandLine b cfg ["hls", "--pipeline", "++", "--out-dot"] = .stop .error :=
  undocumented_refused b cfg (is := [.pipeline (some "++"), .out .DOT none])
    (.cons .pipelinePlus (.cons (.out (by decide) .bare) .nil))
    (fun v h => by
      simp only [List.mem_cons, List.not_mem_nil, or_false, reduceCtorEq, Item.pipeline.injEq, Option.some.injEq] at h
      exact .inr (.inl h))
    (fun h => by
      obtain ⟨n, hn⟩ := h.given.number "++" (by simp)
      have := stagesOf_decimal hn
      rw [show stagesOf "++" = none by decide] at this
      cases this)
    (by decide)

/-- A pipeline of three stages in two notations. -/
example (b : String → Option Bool) (cfg : SimConfig) :
    commandLine b cfg ["hls", "--pipeline=3", "--out-dot"] = .hls "" ⟨.combPipelining, 3, ["", "", "", "", "", "output.dot"]⟩ ∧
    commandLine b cfg ["hls", "--out-dot", "--pipeline", "3"] = .hls "" ⟨.combPipelining, 3, ["", "", "", "", "", "output.dot"]⟩ := by
  unfold commandLine
  rw [run_hls (is := [.pipeline (some "3"), .out .DOT none]) (ls := ["--pipeline=3", "--out-dot"])
      (.cons (.pipeline (.eq (by decide))) (.cons (.out (by decide) .bare) .nil)),
    run_hls (is := [.out .DOT none, .pipeline (some "3")]) (ls := ["--out-dot", "--pipeline", "3"])
      (.cons (.out (by decide) .bare) (.cons (.pipeline (.next (by unfold Plain; decide))) .nil))]
  exact ⟨rfl, rfl⟩

/-- No output. -/
example (b : String → Option Bool) (cfg : SimConfig) : commandLine b cfg ["hls", "-l"] = .stop .error := by
  unfold commandLine
  rw [run_hls (is := [.linear]) (ls := ["-l"]) (.cons .linear .nil)]
  rfl

example : NotNumber "three" := .inr ⟨'t', "hree".toList, by decide, .inl (by decide)⟩
example : NotNumber "3x" := .inr ⟨'3', ['x'], by decide, .inr ⟨by decide, by decide, 'x', by decide, by decide⟩⟩
example : Unknown "--in" := .long (n := "in") (c := 'i') (r := ['n']) (by decide) (by decide) (by decide) (by decide)
example : Unknown "-v" := .short (c := 'v') (by decide) (by decide) (by decide) (by decide)

/-- C76: the hypotheses are met. -/
theorem minus_one (b : String → Option Bool) (cfg : SimConfig) :
    ∃ config o, commandLine b cfg ["hls", "--pipeline=-1", "--out-sv"] = .hls config o ∧ o.scheduler = .combPipelining ∧ o.stages = 2 ^ 64 - 1 := by
  have hn : Negative "-1" (2 ^ 64 - 1) := ⟨1, by decide, by decide, by decide, by decide⟩
  obtain ⟨c, o, e, m⟩ := negative_stages_accepted b cfg (is := [.pipeline (some "-1"), .out .SystemVerilog none])
    (ls := ["--pipeline=-1", "--out-sv"]) (.cons (.pipeline (.eq (by decide))) (.cons (.out (by decide) .bare) .nil))
    { given := ⟨by decide, by decide, fun f _ => by cases f <;> decide, fun v h => by
        simp only [List.mem_cons, List.not_mem_nil, or_false, reduceCtorEq, Item.pipeline.injEq, Option.some.injEq] at h
        exact ⟨_, h ▸ hn⟩⟩
      asap := fun h => by simp at h
      linear := fun h => by simp at h
      output := ⟨.SystemVerilog, none, by simp⟩
      known := fun t h => by simp at h }
    (by decide)
  exact ⟨c, o, e, m.pipeline "-1" _ (by simp) hn⟩

example : TooBig "18446744073709551616" (2 ^ 64 - 1) := ⟨2 ^ 64, by decide, by decide, rfl⟩
example : Octal "010" 8 := ⟨by decide, by decide⟩
example : Decimal "10" 10 ∧ stagesOf "010" = some 8 := ⟨⟨by decide, by decide⟩, by decide⟩

/-- The example of the documentation after a mark: the scheduler is not the one asked for. -/
example (b : String → Option Bool) (cfg : SimConfig) :
    commandLine b cfg ("--" :: "hls" :: readmeArgs) =
      .hls "~/utopia-user/config.json" ⟨.combPipelining, 0, ["~/outFile.sv", "", "~/outFile2.mlir", "", "", ""]⟩ :=
  mark_loses_scheduler b cfg readme_writes (readme_runs b cfg)

end Verif.Cli
