import Verif.Whole.Process
import Verif.Whole.Examples
import Verif.Json.Examples
/-
Concrete cases for C90.
-/
namespace Verif.Whole
open Verif.Dfcxx Verif.Flow Verif.Sched Verif.Driver Verif.Cli.Spec
open Verif.Json (Doubles Settings IsFile FieldNumbers bytes)

theorem bytes_name {s : Json.Bytes} (h : s.all (fun x => decide (x < 256)) = true) : bytes (Json.name s) = s := by
  unfold bytes Json.name
  rw [String.toList_ofList, List.map_map]
  conv_rhs => rw [← List.map_id s]
  refine List.map_congr_left fun x hx => ?_
  have hlt : x < 256 := of_decide_eq_true (List.all_eq_true.mp h x hx)
  have hv : x.isValidChar := .inl (by omega)
  show (Char.ofNat x).toNat = x
  unfold Char.ofNat
  rw [dif_pos hv]
  rfl

/-- A disk: the configuration file of the repository, and the latency file of an example under the name README.md:203 uses. -/
def disk : Files := fun p =>
  if p = "/utopia/config.json" then some (Json.name Json.configJson)
  else if p = "~/utopia-user/config.json" then some (Json.name Json.add2mul3)
  else none

/-- The latencies of /repo/examples/scalar3/add_int_2_mul_int_3.json. -/
def add2mul3Lat (k : Config.Kind) (f : Bool) : Nat :=
  match k, f with
  | .add, false => 2
  | .mul, false => 3
  | k, f => if (Config.fieldName k f).isSome then 1 else 0

theorem disk_settings (D : Doubles) : Settings D ((disk "/utopia/config.json").map bytes) (some "sim.txt") (some "sim_out.vcd") := by
  have e : (disk "/utopia/config.json").map bytes = some Json.configJson := by
    show some (bytes (Json.name Json.configJson)) = _
    rw [bytes_name (by decide +kernel)]
  rw [e]
  exact Json.startup_iff.mp (Json.shipped_startup D)

theorem add2mul3_ops : Json.object Json.add2mul3Ops = Json.add2mul3Ops := rfl

theorem disk_loaded (D : Doubles) : Loaded D disk Cli.readmeItems add2mul3Lat := by
  have hb : bytes (Json.name Json.add2mul3) = Json.add2mul3 := bytes_name (by decide +kernel)
  refine .file (v := some "~/utopia-user/config.json") (s := Json.name Json.add2mul3)
    (x := .obj [(bytes "dfcir", .obj Json.add2mul3Ops)]) (by decide) (by simp [disk]) ?_ ?_ ?_ ?_
  · rw [hb]
    exact ⟨_, [], Json.add2mul3_text D.finite, .inl rfl, .inl (List.append_nil _).symm⟩
  · intro w hw
    have hw : some (Json.Val.obj Json.add2mul3Ops) = some w := hw
    cases hw
    refine .obj fun k v h => ?_
    simp only [Json.add2mul3Ops, List.mem_cons, List.not_mem_nil, or_false, Prod.mk.injEq] at h
    rcases h with ⟨-, rfl⟩ | ⟨-, rfl⟩
    · exact ⟨_, .unsigned 2⟩
    · exact ⟨_, .unsigned 3⟩
  · intro w hw
    have hw : none = some w := hw
    cases hw
  · intro k f
    cases hn : Config.fieldName k f with
    | none =>
      have : add2mul3Lat k f = 0 := by cases k <;> cases f <;> first | (simp [Config.fieldName] at hn; done) | rfl
      rw [this]
      exact .wire hn
    | some n =>
      by_cases h1 : n = "ADD_INT"
      · subst h1
        have : add2mul3Lat k f = 2 := by cases k <;> cases f <;> first | (simp [Config.fieldName] at hn; done) | rfl
        rw [this]
        exact .given hn rfl rfl (.unsigned 2)
      · by_cases h2 : n = "MUL_INT"
        · subst h2
          have : add2mul3Lat k f = 3 := by cases k <;> cases f <;> first | (simp [Config.fieldName] at hn; done) | rfl
          rw [this]
          exact .given hn rfl rfl (.unsigned 3)
        · have : add2mul3Lat k f = 1 := by
            cases k <;> cases f <;> first | (simp [Config.fieldName] at hn; done) | rfl | (exfalso; cases hn; first | exact h1 rfl | exact h2 rfl)
          rw [this]
          refine .absent hn fun ops hops => ?_
          have hops : some (Json.Val.obj Json.add2mul3Ops) = some ops := hops
          cases hops
          show Json.add2mul3Ops.lookup (bytes n) = none
          rw [List.lookup_eq_none_iff]
          intro p hp
          simp only [Json.add2mul3Ops, List.mem_cons, List.not_mem_nil, or_false] at hp
          have key : ∀ s, n ≠ s → (bytes n != bytes s) = true := by
            intro s hne
            rw [bne_iff_ne]
            intro e
            have := congrArg Json.name e
            rw [Json.name_bytes, Json.name_bytes] at this
            exact hne this
          rcases hp with rfl | rfl
          · exact key _ h1
          · exact key _ h2

/-- `umain hls --config ~/utopia-user/config.json --out-sv ~/outFile.sv --out-dfcir ~/outFile2.mlir -a` with the kernel `Polynomial2` and the files above. -/
example (F : FloatOps) (D : Doubles) : ∃ w g cells size fs', Flat.polynomial2 F World.init = .ok ((), w) ∧
    process D sampleEnv (fun _ => none) (fun _ _ fs => .ok (0, fs)) "/utopia/config.json" "Polynomial2" w g ("hls" :: Cli.readmeArgs) disk = .ok (0, fs') ∧
    fs' "~/outFile.sv" = some "verilog" ∧ fs' "/utopia/config.json" = disk "/utopia/config.json" ∧
    Flat.ShowsAll cells size [("x", 32)] [Flat.out32 "out" fun port t => Flat.at32 port "x" t ^ 2 + 2 * Flat.at32 port "x" t] := by
  obtain ⟨w, g, h1, -, h2⟩ := (polynomial2_tool (F := F)).process
  obtain ⟨cells, size, code, fs', r1, r2, r3⟩ := h2 Unit sampleEnv D (fun _ => none) (fun _ _ fs => .ok (0, fs)) "/utopia/config.json" "Polynomial2" _ _ disk
    _ _ _ (sampleEnv_fair w g) readme_line (.inl (by decide)) (disk_settings D) (disk_loaded D) (by simp)
  have he : exported sampleEnv cells size = some "verilog" := rfl
  have hc : code = 0 := r2.success.mpr ⟨rfl, fun _ => by rw [he]; rfl⟩
  subst hc
  refine ⟨w, g, cells, size, fs', h1, r1, r2.verilog rfl _ he (some "~/outFile.sv") (by decide), r2.others _ ?_, r3⟩
  intro f v hv
  simp only [Cli.readmeItems, List.mem_cons, List.not_mem_nil, or_false, reduceCtorEq, false_or, Item.out.injEq] at hv
  rcases hv with ⟨rfl, rfl⟩ | ⟨rfl, rfl⟩ <;> decide

/-- The same with a latency that is a string: the process ends with an exception. -/
example (D : Doubles) (w : World) (g : KGraph) (fs : Files) (h0 : fs "/utopia/config.json" = none)
    (hs : fs "~/utopia-user/config.json" = some "{\"dfcir\":{\"ADD_INT\":\"2\"}}") :
    ∃ f, process D sampleEnv (fun _ => none) (fun _ _ fs => .ok (0, fs)) "/utopia/config.json" "K" w g ("hls" :: Cli.readmeArgs) fs = .error (.json f) := by
  refine process_unusable (a := none) (a' := none) (by rw [h0]; exact .missing) readme_line (v := some "~/utopia-user/config.json") (by decide) hs ?_
  rintro ⟨x, h1, h2, -⟩
  have hp : Json.parse D.finite (bytes "{\"dfcir\":{\"ADD_INT\":\"2\"}}") = some (.obj [(bytes "dfcir", .obj [(bytes "ADD_INT", .str (bytes "2"))])]) := rfl
  rw [Json.parse_file.mpr h1] at hp
  cases hp
  cases h2 _ rfl with
  | obj h =>
    obtain ⟨n, hn⟩ := h _ _ (List.mem_cons_self ..)
    cases hn
  | one h => cases h

/-- With a comment in the configuration file of the program not even `--help` works. -/
example (D : Doubles) (w : World) (g : KGraph) (fs : Files) (h0 : fs "/utopia/config.json" = some "// settings\n{}") :
    process D sampleEnv (fun _ => none) (fun _ _ fs => .ok (0, fs)) "/utopia/config.json" "K" w g ["--help"] fs = .error (.json .exception) := by
  refine process_unset (fun a a' h => ?_) _
  rw [h0] at h
  have hp : Json.startup D (some (bytes "// settings\n{}")) = .error .exception := rfl
  rw [Option.map_some, ← Json.startup_iff, hp] at h
  cases h

/-- `umain sim` with the files above reads `sim.txt` and writes `sim_out.vcd`. -/
example (D : Doubles) : Settings D ((disk "/utopia/config.json").map bytes) (some "sim.txt") (some "sim_out.vcd") ∧
    Vcd.SimLine ⟨some "sim.txt", some "sim_out.vcd"⟩ [] "sim.txt" "sim_out.vcd" :=
  ⟨disk_settings D, ⟨[], .nil, .inr ⟨rfl, rfl⟩, .inr ⟨rfl, rfl⟩⟩⟩

end Verif.Whole
