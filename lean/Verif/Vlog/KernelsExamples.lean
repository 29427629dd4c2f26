import Verif.Vlog.Kernels
import Verif.Whole.Examples
/-
Concrete cases for C87.
-/
namespace Verif.Vlog
open Verif.Hw Verif.Flow Verif.Dfcxx Verif.Sched Verif.Driver Verif.Cli.Spec Verif.Whole
open Verif.Config (Format)

open Classical in
/-- `Whole.sampleEnv` with the generator of `Vlog.libText` for the library. -/
noncomputable def libraryEnv : Env Unit :=
  { sampleEnv with
    stubs := fun cells size => if h : ∃ ms, ModulesOf cells size ms then String.ofList (libText h.choose sampleEnv.time.toList) else "" }

theorem libraryEnv_fair (w : World) (g : KGraph) : libraryEnv.Fair w g :=
  let h := sampleEnv_fair w g
  ⟨h.graph, h.dot, h.buf, h.solve, h.arith⟩

theorem libraryEnv_writes : WritesLibrary libraryEnv :=
  ⟨show '\n' ∉ "1-1-1970 0:0:0".toList by decide, fun _ _ h => ⟨h.choose, h.choose_spec, dif_pos h⟩⟩

theorem library_line : Whole.Line libraryEnv.canOpen [.asap, .out .SVLibrary none] ["-a", "--out-sv-lib"] where
  writes := .cons .asap (.cons (.out (by decide) .bare) .nil)
  valid :=
    { given := ⟨by decide, by decide, fun f _ => by cases f <;> decide, fun v h => by simp at h⟩
      asap := fun _ => ⟨by decide, fun v h => by simp at h⟩
      linear := fun h => by simp at h
      output := ⟨.SVLibrary, none, by simp⟩
      known := fun t h => by simp at h }
  noHelp := by decide
  distinct := by
    intro f g v w h1 h2 _
    simp only [List.mem_cons, reduceCtorEq, List.not_mem_nil, or_false, false_or, Item.out.injEq] at h1 h2
    rw [h1.1, h2.1]
  opens := fun _ _ _ => rfl

/-- `umain hls -a --out-sv-lib` without configuration file, linked with `Polynomial2`: `output-lib.sv` holds modules with which the circuit computes
x² + 2x. -/
example (F : FloatOps) (fs : Files) : ∃ w g cells size code fs' text as, Flat.polynomial2 F World.init = .ok ((), w) ∧
    tool libraryEnv (fun _ => none) ⟨none, none⟩ (fun _ _ fs => .ok (0, fs)) "Polynomial2" w g ["hls", "-a", "--out-sv-lib"] fs = .ok (code, fs') ∧
    fs' "output-lib.sv" = some text ∧ read text.toList = some as ∧ (as.map Mod.name).Nodup ∧
    LibShowsAll as cells size [("x", 32)] [Flat.out32 "out" fun port t => Flat.at32 port "x" t ^ 2 + 2 * Flat.at32 port "x" t] := by
  obtain ⟨w, g, h1, -, h2⟩ := polynomial2_library (F := F)
  obtain ⟨cells, size, code, fs', r1, -, r3⟩ := h2 Unit libraryEnv (fun _ => none) ⟨none, none⟩ (fun _ _ fs => .ok (0, fs)) "Polynomial2" _ _ fs
    (libraryEnv_fair w g) libraryEnv_writes library_line (.inl (by decide)) (fun file hc => by
      cases hc with
      | given h e => simp at h
      | absent h => exact ⟨fun k fl => (atMost_none k fl).trans (by decide), by simp⟩)
  obtain ⟨text, as, t1, t2, t3, t4⟩ := r3 rfl none (by decide)
  exact ⟨w, g, cells, size, code, fs', text, as, h1, r1, t1, t2, t3, t4⟩

/-- The whole 8×8 inverse DCT, likewise. -/
example (F : FloatOps) (fs : Files) : ∃ w g cells size code fs' text as, Flat.idct F World.init = .ok ((), w) ∧
    tool libraryEnv (fun _ => none) ⟨none, none⟩ (fun _ _ fs => .ok (0, fs)) "IDCT" w g ["hls", "-a", "--out-sv-lib"] fs = .ok (code, fs') ∧
    fs' "output-lib.sv" = some text ∧ read text.toList = some as ∧ LibShowsAll as cells size [("x", 768)] [Flat.idctOut] := by
  obtain ⟨w, g, h1, -, h2⟩ := idct_library (F := F)
  obtain ⟨cells, size, code, fs', r1, -, r3⟩ := h2 Unit libraryEnv (fun _ => none) ⟨none, none⟩ (fun _ _ fs => .ok (0, fs)) "IDCT" _ _ fs
    (libraryEnv_fair w g) libraryEnv_writes library_line (.inl (by decide)) (fun file hc => by
      cases hc with
      | given h e => simp at h
      | absent h => exact ⟨fun k fl => (atMost_none k fl).trans (by decide), fun _ => by unfold Flat.StagesGiven; decide⟩)
  obtain ⟨text, as, t1, t2, t3, t4⟩ := r3 rfl none (by decide)
  exact ⟨w, g, cells, size, code, fs', text, as, h1, r1, t1, t2, t4⟩

end Verif.Vlog
