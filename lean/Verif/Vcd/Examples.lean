import Verif.Vcd.Kernels
import Verif.Flow.SimHw
/-
Concrete cases for C79.
-/
namespace Verif.Vcd
open Verif.Dfcxx Verif.Flow Verif.Driver Verif.Cli Verif.Flat Verif.Kernels

/-- README.md:211 -/
theorem readmeSim (cfg : SimConfig) : SimLine cfg ["--in", "a.txt", "--out", "b.vcd"] "a.txt" "b.vcd" :=
  ⟨[.inp (some "a.txt"), .out (some "b.vcd")],
    .inp (v := some "a.txt") (l := ["--in", "a.txt"]) (.next (by unfold Cli.Spec.Plain; decide)) (.out (v := some "b.vcd") (l := ["--out", "b.vcd"]) (.next (by unfold Cli.Spec.Plain; decide)) .nil),
    .inl ⟨some "a.txt", rfl, rfl⟩, .inl ⟨some "b.vcd", rfl, rfl⟩⟩

/-- No options: the paths of the configuration file. -/
example : SimLine ⟨some "sim.txt", some "sim_out.vcd"⟩ [] "sim.txt" "sim_out.vcd" :=
  ⟨[], .nil, .inr ⟨rfl, rfl⟩, .inr ⟨rfl, rfl⟩⟩

theorem docX_fits : DocFits [("x", 32)] docX := by
  intro i hi
  rw [List.mem_singleton.mp hi]
  refine ⟨⟨_, List.mem_cons_self, 3, by simp⟩, fun b hb v hv => ?_⟩
  simp only [docX, List.mem_cons, List.not_mem_nil, or_false] at hb
  rcases hb with rfl | rfl <;> simp at hv <;> subst hv <;> decide

/-- `AddConst` fed with 3 and 200: at time 1 the output is 14, at time 2 it is 605. -/
theorem addConst_sim_example (F : FloatOps) (now : Clock) (B : String → Backend Unit) : ∃ w G it, ∃ fs' t f,
    program (M := Unit) (fun _ => none) ⟨none, none⟩ B
      (simMain F (fun _ => true) now w G it) ["sim", "--in", "a.txt", "--out", "b.vcd"]
      (fun p => if p = "a.txt" then some (String.ofList (linesX.flatMap (· ++ ['\n']))) else none) = .ok (0, fs') ∧
    fs' "b.vcd" = some (String.ofList t) ∧ read t = some f ∧ endTime f.events = 3 ∧
    Shows f "out".toList 32 0 (List.replicate 32 'x') ∧
    (∃ bits, binVal bits = 14 ∧ Shows f "out".toList 32 1 bits) ∧ (∃ bits, binVal bits = 605 ∧ Shows f "out".toList 32 2 bits) := by
  obtain ⟨w, g, -, hf, h⟩ := addConst_sim (F := F)
  have he : Enumeration w g ⟨g.nodes, g.starts, fun n => if n ∈ g.nodes then (w.node n).outs.map fun c => (w.chan c).tgt else []⟩ :=
    ⟨.refl _, .refl _, fun n hn => if_pos hn, fun n hn => if_neg hn⟩
  obtain ⟨fs', t, f, h1, h2, -, h4, h5, h6⟩ := h _ he g.nodes (.refl _) Unit (fun _ => none) ⟨none, none⟩ B (fun _ => true) now _ "a.txt" "b.vcd"
    (fun p => if p = "a.txt" then some (String.ofList (linesX.flatMap (· ++ ['\n']))) else none) (readmeSim _) (by decide) rfl docX linesX linesX_render
    ⟨_, List.mem_cons_self, by simp⟩ (by decide) docX_fits rfl
  obtain ⟨h7, h8⟩ := h6 _ List.mem_cons_self
  refine ⟨w, _, g.nodes, fs', t, f, h1, h2, h4, h5, h7, ?_, ?_⟩
  · obtain ⟨bits, ⟨-, -, e⟩, hs⟩ := h8 0 (by decide) (Nat.zero_le _)
    exact ⟨bits, by rw [e]; decide, hs⟩
  · obtain ⟨bits, ⟨-, -, e⟩, hs⟩ := h8 1 (by decide) (Nat.zero_le _)
    exact ⟨bits, by rw [e]; decide, hs⟩

/-- A name with a blank. -/
example (now : Clock) : read (text now ⟨[("a b", 1)], [⟨1, [("a b", ['1'])]⟩], 2⟩) = none :=
  blank_name_unreadable now "a" "b" ⟨by decide, by decide, by decide⟩ ⟨by decide, by decide, by decide⟩ 1 ['1'] (by decide)

/-- A dump of two variables and one tick, in full. -/
example : text ⟨5, 6, 2025, 7, 8, 9⟩ ⟨[("x", 2), ("node0", 1)], [⟨1, [("x", ['1', '0']), ("node0", ['1'])]⟩], 2⟩ =
"$date 5-6-2025 7:8:9 $end
$version Utopia HLS $end
$timescale 1ps $end

$scope module logic $end
$var wire 2 x x $end
$var wire 1 node0 node0 $end
$upscope $end
$enddefinitions $end

$dumpvars
bxx x
bx node0
$end

#1
b10 x
b1 node0

#2
".toList := by
  rw [text_eq]
  decide +kernel

end Verif.Vcd
