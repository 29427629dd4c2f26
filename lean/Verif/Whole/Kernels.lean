import Verif.Whole.Props
import Verif.Kernels.Chain
import Verif.Kernels.Props
import Verif.Flat.Idct
import Verif.Flat.RowIdct
import Verif.Flat.Small
/-
C78 for the kernels of the standard library and of /repo/examples: from the arguments of the program to the design in its files.
-/
namespace Verif.Whole
open Verif.Dfcxx Verif.Flow Verif.Sched Verif.Driver Verif.Cli.Spec
open Verif.Kernels (Build)

/-- The tool linked with the kernel whose constructor is `p`.  For every environment, every documented command line with `-a` or `-l` (`any`: or
with neither, or with `--pipeline` and fewer than 2^31 stages), whatever files it names and whatever else it asks for: the run ends, its files hold the
texts of one design, and the design is `Good`.  `signed`: the latency configuration must give integer arithmetic at least one stage. -/
def ToolMakes (p : Build Unit) (any signed : Bool) (Good : (Nat → Cell) → Nat → Prop) : Prop :=
  ∃ w g, p World.init = .ok ((), w) ∧ Finished w g ∧
    ∀ (C : Type) (E : Env C) (b : String → Option Bool) (cfg : Cli.SimConfig) (sim : String → String → Files → Except Fault (Nat × Files))
      (name : String) (is : List Item) (ls : List String) (fs : Files),
      E.Fair w g → Line E.canOpen is ls → (Item.asap ∈ is ∨ Item.linear ∈ is ∨ any = true ∧ ∃ n, n < 2 ^ 31 ∧ Pipelined is n) →
      (signed = true → ∀ file, Configured E.config is file → Flat.StagesGiven file) →
      ∃ cells size code fs', tool E b cfg sim name w g ("hls" :: ls) fs = .ok (code, fs') ∧ Delivered E name w g is fs cells size code fs' ∧
        Good cells size

/-- Where a design comes from: a kernel hardware is produced for, and one of the passes. -/
def Origin (conf : Option Config.JsonDoc → Prop) (w : World) (g : KGraph) (cells : Nat → Cell) (size : Nat) : Prop :=
  ∃ (F : FloatOps) (L : Nat → Nat) (file : Option Config.JsonDoc), Hist F Proper World.init w ∧ HwHandled w.view L g.nodes ∧ conf file ∧
    (Scheduled w g file cells size ∨ (∀ n ∈ g.nodes, (w.view n).op ≠ .OFFSET) ∧ Compiled w g file cells size)

/-- `ToolMakes` with the origin of the design; `offs`: whether the kernel may have offsets. -/
def ToolMakesFrom (p : Build Unit) (any signed offs : Bool) (Good : (Nat → Cell) → Nat → Prop) : Prop :=
  ∃ w g, p World.init = .ok ((), w) ∧ Finished w g ∧ (offs = false → ∀ n ∈ g.nodes, (w.view n).op ≠ .OFFSET) ∧
    ∀ (C : Type) (E : Env C) (b : String → Option Bool) (cfg : Cli.SimConfig) (sim : String → String → Files → Except Fault (Nat × Files))
      (name : String) (is : List Item) (ls : List String) (fs : Files),
      E.Fair w g → Line E.canOpen is ls → (Item.asap ∈ is ∨ Item.linear ∈ is ∨ any = true ∧ ∃ n, n < 2 ^ 31 ∧ Pipelined is n) →
      (signed = true → ∀ file, Configured E.config is file → Flat.StagesGiven file) →
      ∃ cells size code fs', tool E b cfg sim name w g ("hls" :: ls) fs = .ok (code, fs') ∧ Delivered E name w g is fs cells size code fs' ∧
        Good cells size ∧ Origin (Configured E.config is) w g cells size

theorem ToolMakesFrom.tool {p : Build Unit} {any signed offs : Bool} {Good : (Nat → Cell) → Nat → Prop} (h : ToolMakesFrom p any signed offs Good) :
    ToolMakes p any signed Good := by
  obtain ⟨w, g, h1, h2, -, h3⟩ := h
  refine ⟨w, g, h1, h2, fun C E b cfg sim name is ls fs a1 a2 a3 a4 => ?_⟩
  obtain ⟨cells, size, code, fs', r1, r2, r3, -⟩ := h3 C E b cfg sim name is ls fs a1 a2 a3 a4
  exact ⟨cells, size, code, fs', r1, r2, r3⟩

section
variable {F : FloatOps}

/-- Kernels of `Flat`. -/
theorem scheduled_from {K : Flat.Cfg} {p : Build Unit} {outs : List Flat.OutPort}
    (h : Flat.FDoes F K p World.init (fun _ => []) (fun _ w => ∀ o ∈ outs, Flat.Established K w o))
    (hx : (∀ k, K.exempt k = false) ∨ K.offs = false) : ToolMakesFrom p false K.signed K.offs (fun c s => Flat.ShowsAll c s K.ins outs) := by
  obtain ⟨w', g', e1, f1, h1⟩ := Flat.FDoes.scheduled h hx
  obtain ⟨u, w, e2, hg, -, ho⟩ := h
  obtain ⟨g, hf⟩ := hg.finished
  rw [e1] at e2; cases e2
  have : g' = g := by
    have := f1.only
    rw [hf.only] at this
    exact (List.head_eq_of_cons_eq this).symm
  subst this
  refine ⟨w', g', e1, hf, (fun ho n hn h => by have := ((hg.node hf n hn).offTy h).1; rw [ho] at this; cases this),
    fun C E b cfg sim name is ls fs hE hl ha hs => ?_⟩
  have ha' : Item.asap ∈ is ∨ Item.linear ∈ is := by rcases ha with ha | ha | ⟨ha, -⟩ <;> [exact .inl ha; exact .inr ha; cases ha]
  have hsg : Signs w' g' := by
    rcases hx with hx | hx
    · exact .inl (hg.signs hf hx)
    · exact .inr ⟨_, hg.signsBut hf hx⟩
  obtain ⟨file, cells, size, code, fs', r1, r2, r3, r4⟩ := tool_schedules (b := b) (cfg := cfg) (sim := sim) (name := name) (fs := fs) hg.hist hf hE hl ha'
    (fun file hc => hg.handled_file hf file fun h => hs h file hc) hsg
  exact ⟨cells, size, code, fs', r3, r4, (h1 file fun h => hs h file r1).2 cells size r2, F, _, file, hg.hist,
    hg.handled_file hf file fun h => hs h file r1, r1, .inl r2⟩

theorem scheduled_tool {K : Flat.Cfg} {p : Build Unit} {outs : List Flat.OutPort}
    (h : Flat.FDoes F K p World.init (fun _ => []) (fun _ w => ∀ o ∈ outs, Flat.Established K w o))
    (hx : (∀ k, K.exempt k = false) ∨ K.offs = false) : ToolMakes p false K.signed (fun c s => Flat.ShowsAll c s K.ins outs) :=
  (scheduled_from h hx).tool

theorem any_from {K : Flat.Cfg} {p : Build Unit} {outs : List Flat.OutPort}
    (h : Flat.FDoes F K p World.init (fun _ => []) (fun _ w => ∀ o ∈ outs, Flat.Established K w o))
    (hx : ∀ k, K.exempt k = false) (hsg : K.signed = false) (hof : K.offs = false) : ToolMakesFrom p true false false (fun c s => Flat.ShowsAll c s K.ins outs) := by
  obtain ⟨w', g', e1, f1, h1⟩ := Flat.FDoes.realizes h hx hsg hof
  obtain ⟨u, w, e2, hg, -, ho⟩ := h
  obtain ⟨g, hf⟩ := hg.finished
  rw [e1] at e2; cases e2
  have : g' = g := by
    have := f1.only
    rw [hf.only] at this
    exact (List.head_eq_of_cons_eq this).symm
  subst this
  have hok := hg.node hf
  refine ⟨w', g', e1, hf, (fun _ n hn h => by have := ((hok n hn).offTy h).1; rw [hof] at this; cases this),
    fun C E b cfg sim name is ls fs hE hl ha _ => ?_⟩
  rcases or_assoc.mpr ha with ha | ⟨-, n, hn, hp⟩
  · obtain ⟨file, cells, size, code, fs', r1, r2, r3, r4⟩ := tool_schedules (b := b) (cfg := cfg) (sim := sim) (name := name) (fs := fs) hg.hist hf hE hl ha
      (fun file hc => hg.handled_file hf file (by simp [hsg])) (.inl (hg.signs hf hx))
    exact ⟨cells, size, code, fs', r3, r4, (h1 file).2 cells size r2.compiled, F, _, file, hg.hist, hg.handled_file hf file (by simp [hsg]), r1, .inl r2⟩
  · have hu : ∀ n, Flat.unitL K.signed (w'.view n).op = 0 := fun n => by rw [hsg]; cases (w'.view n).op <;> rfl
    obtain ⟨file, cells, size, code, fs', r1, r2, r3, r4⟩ := tool_pipelines (b := b) (cfg := cfg) (sim := sim) (name := name) (fs := fs) hg.hist hf hE hl hp hn
      (hg.handled hf (L := fun _ => 0) (fun n _ => Nat.le_of_eq (hu n)) (fun _ _ _ => rfl))
      (fun n hn h => by have := ((hok n hn).offTy h).1; rw [hof] at this; cases this) (.inr (hg.signs hf hx))
    exact ⟨cells, size, code, fs', r3, r4, (h1 file).2 cells size r2, F, _, file, hg.hist,
      hg.handled hf (L := fun _ => 0) (fun n _ => Nat.le_of_eq (hu n)) (fun _ _ _ => rfl), r1,
      .inr ⟨(fun n hn h => by have := ((hok n hn).offTy h).1; rw [hof] at this; cases this), r2⟩⟩

theorem any_tool {K : Flat.Cfg} {p : Build Unit} {outs : List Flat.OutPort}
    (h : Flat.FDoes F K p World.init (fun _ => []) (fun _ w => ∀ o ∈ outs, Flat.Established K w o))
    (hx : ∀ k, K.exempt k = false) (hsg : K.signed = false) (hof : K.offs = false) : ToolMakes p true false (fun c s => Flat.ShowsAll c s K.ins outs) :=
  (any_from h hx hsg hof).tool

/-- Kernels with instances. -/
theorem contract_from {Z : String → Prop} {K : World → Prop} {p : Build Unit} {ins : List (String × Nat)} {out : String} {k : Nat}
    {f : List Pat → BitVec k} (hc : Kernels.Contract F Z K p ins out k f) (hK : K World.init) {P : (String → Nat) → BitVec k → Prop}
    (hr : Kernels.Realizes p ins out k P) : ToolMakesFrom p true false false (fun c s => Kernels.Shows c s ins out k P) := by
  obtain ⟨w, g, o, e2, h2, hf, h4, h5, -⟩ := hc.built hK
  obtain ⟨w', g', e1, f1, h1⟩ := hr
  rw [e1] at e2; cases e2
  have : g = g' := by
    have := f1.only
    rw [hf.only] at this
    exact List.head_eq_of_cons_eq this
  subst this
  refine ⟨_, _, e1, hf, fun _ => h5, fun C E b cfg sim name is ls fs hE hl ha _ => ?_⟩
  obtain ⟨order, g1, g2, g3, g4, -⟩ := finished_kernel_is_processable h2 hf hE.graph
  have hcm : ∀ n ∈ g.nodes, Complete w.view n := fun n hn => g4 n (g2.mem_iff.mpr hn)
  have hsg : SignsByWidth w.view g.nodes := (h4 fun _ => 0).signs
  rcases or_assoc.mpr ha with ha | ⟨-, n, hn, hp⟩
  · obtain ⟨file, cells, size, code, fs', r1, r2, r3, r4⟩ := tool_schedules (b := b) (cfg := cfg) (sim := sim) (name := name) (fs := fs) h2 hf hE hl ha
      (fun file _ => (h4 _).hw hcm) (.inl hsg)
    exact ⟨cells, size, code, fs', r3, r4, (h1 file).2 cells size r2.compiled, F, _, file, h2, (h4 fun _ => 0).hw hcm, r1, .inl r2⟩
  · obtain ⟨file, cells, size, code, fs', r1, r2, r3, r4⟩ := tool_pipelines (b := b) (cfg := cfg) (sim := sim) (name := name) (fs := fs) h2 hf hE hl hp hn
      ((h4 _).hw hcm) h5 (.inr hsg)
    exact ⟨cells, size, code, fs', r3, r4, (h1 file).2 cells size r2, F, _, file, h2, (h4 fun _ => 0).hw hcm, r1, .inr ⟨h5, r2⟩⟩

theorem contract_tool {Z : String → Prop} {K : World → Prop} {p : Build Unit} {ins : List (String × Nat)} {out : String} {k : Nat}
    {f : List Pat → BitVec k} (hc : Kernels.Contract F Z K p ins out k f) (hK : K World.init) {P : (String → Nat) → BitVec k → Prop}
    (hr : Kernels.Realizes p ins out k P) : ToolMakes p true false (fun c s => Kernels.Shows c s ins out k P) :=
  (contract_from hc hK hr).tool

/-! ### The kernels -/

open Flat Kernels

theorem addConst_tool : ToolMakes (addConst F) true false fun c s => ShowsAll c s [("x", 32)] [out32 "out" fun port t => 3 * at32 port "x" t + 5] :=
  any_tool (F := F) (K := plainCfg [("x", 32)]) addConst_does (fun _ => rfl) rfl rfl

theorem polynomial2_tool : ToolMakes (polynomial2 F) true false fun c s =>
    ShowsAll c s [("x", 32)] [out32 "out" fun port t => at32 port "x" t ^ 2 + 2 * at32 port "x" t] :=
  any_tool (F := F) (K := plainCfg [("x", 32)]) polynomial2_does (fun _ => rfl) rfl rfl

theorem scalar3_tool : ToolMakes (scalar3 F) true false fun c s =>
    ShowsAll c s [("x1", 32), ("y1", 32), ("x2", 32), ("y2", 32), ("x3", 32), ("y3", 32)]
      [out32 "out" fun port t => at32 port "x1" t * at32 port "y1" t + at32 port "x2" t * at32 port "y2" t + at32 port "x3" t * at32 port "y3" t] :=
  any_tool (F := F) (K := plainCfg [("x1", 32), ("y1", 32), ("x2", 32), ("y2", 32), ("x3", 32), ("y3", 32)]) scalar3_does (fun _ => rfl) rfl rfl

theorem matrixMul2_tool : ToolMakes (matrixMul2 F) true false fun c s => ShowsAll c s matrixIns
    [out32 "out11" (rowByColumn "x11" "x12" "y11" "y21"), out32 "out12" (rowByColumn "x11" "x12" "y12" "y22"),
      out32 "out21" (rowByColumn "x21" "x22" "y11" "y21"), out32 "out22" (rowByColumn "x21" "x22" "y12" "y22")] :=
  any_tool (F := F) (K := plainCfg matrixIns) matrixMul2_does (fun _ => rfl) rfl rfl

theorem muxMul_tool : ToolMakes (muxMul F) true false fun c s => ShowsAll c s [("x", 32), ("ctrl", 1)]
    [out32 "out" fun port t => if port "ctrl" t = 1 then 2 * at32 port "x" t else 0] :=
  any_tool (F := F) (K := plainCfg [("x", 32), ("ctrl", 1)]) muxMul_does (fun _ => rfl) rfl rfl

theorem movingSum_tool : ToolMakes (movingSum F) false false fun c s => ShowsAll c s [("x", 32)]
    [⟨"out", 32, false, 1, fun port t => at32 port "x" (t - 1) + at32 port "x" t + at32 port "x" (t + 1)⟩] :=
  scheduled_tool (F := F) (K := movingCfg) movingSum_does (.inl fun _ => rfl)

theorem rowIdct_tool : ToolMakes (rowIdct F) false true fun c s => ShowsAll c s rowIns rowOuts :=
  scheduled_tool (F := F) (K := rowCfg) rowIdct_does (.inl fun _ => rfl)

theorem idct_tool : ToolMakes (idct F) false true fun c s => ShowsAll c s [("x", 768)] [idctOut] :=
  scheduled_tool (F := F) (K := idctCfg) idct_does (.inr rfl)

theorem galois8Mul_tool : ToolMakes (galois8Mul F) true false fun c s => Shows c s [("left", 8), ("right", 8)] "result" 8 fun v y =>
    Std.poly y = (Std.poly (BitVec.ofNat 8 (v "left")) * Std.poly (BitVec.ofNat 8 (v "right"))) %ₘ Std.fieldPoly :=
  contract_tool (galois8Mul_contract (F := F) (Z := onlyLeft) (by simp [onlyLeft])) trivial (galois8Mul_hardware F)

theorem magmaEncoder_tool : ToolMakes (magmaEncoder F) true false fun c s => Shows c s [("block", 64), ("key", 256)] "encoded" 64 fun v y =>
    Std.Gost.IsMagmaEncrypt (BitVec.ofNat 256 (v "key")) (BitVec.ofNat 64 (v "block")) y :=
  contract_tool (magmaEncoder_contract (F := F) (Z := onlyLeft) (by simp [onlyLeft]) (by simp [onlyLeft])) trivial (magmaEncoder_hardware F)

theorem magmaDecoder_tool : ToolMakes (magmaDecoder F) true false fun c s => Shows c s [("encoded", 64), ("key", 256)] "block" 64 fun v y =>
    Std.Gost.IsMagmaDecrypt (BitVec.ofNat 256 (v "key")) (BitVec.ofNat 64 (v "encoded")) y :=
  contract_tool (magmaDecoder_contract (F := F) (Z := onlyLeft) (by simp [onlyLeft]) (by simp [onlyLeft])) trivial (magmaDecoder_hardware F)

theorem kuznechikEncoder_tool (opt : Bool) : ToolMakes (kuznechikEncoder F (stdVariant opt)) true false fun c s =>
    Shows c s [("block", 128), ("key", 256)] "encoded" 128 fun v y =>
      Std.Gost.IsKuznechikEncrypt (BitVec.ofNat 256 (v "key")) (BitVec.ofNat 128 (v "block")) y :=
  contract_tool (kuznechikEncoder_contract (F := F) onlyLeft_names (stdVariant opt)) rfl (kuznechikEncoder_hardware F opt)

theorem kuznechikDecoder_tool (opt : Bool) : ToolMakes (kuznechikDecoder F (stdVariant opt)) true false fun c s =>
    Shows c s [("encoded", 128), ("key", 256)] "block" 128 fun v y =>
      Std.Gost.IsKuznechikDecrypt (BitVec.ofNat 256 (v "key")) (BitVec.ofNat 128 (v "encoded")) y :=
  contract_tool (kuznechikDecoder_contract (F := F) onlyLeft_names (v := stdVariant opt) rfl) rfl (kuznechikDecoder_hardware F opt)

theorem exampleEncoder_tool (mul : MulBy) : ToolMakes (kuznechikEncoder F (exampleEncoder mul)) true false fun c s =>
    Shows c s [("block", 128), ("key", 256)] "encoded" 128 fun v y =>
      Std.Gost.IsKuznechikEncrypt (BitVec.ofNat 256 (v "key")) (BitVec.ofNat 128 (v "block")) y :=
  contract_tool (kuznechikEncoder_contract (F := F) onlyLeft_names (exampleEncoder mul)) rfl (exampleEncoder_hardware F mul)

theorem exampleDecoder_tool (mul : MulBy) : ToolMakes (kuznechikDecoder F (exampleDecoder mul)) true false fun c s =>
    Shows c s [("encoded", 128), ("key", 256)] "block" 128 fun v y =>
      Std.Gost.IsKuznechikDecrypt (BitVec.ofNat 256 (v "key")) (BitVec.ofNat 128 (v "encoded")) y :=
  contract_tool (kuznechikDecoder_contract (F := F) onlyLeft_names (v := exampleDecoder mul) rfl) rfl (exampleDecoder_hardware F mul)

theorem polynomial2Inst_tool : ToolMakes (polynomial2Inst F) true false fun c s =>
    Shows c s [("x", 32)] "out" 32 fun v y => y.toNat = (v "x" ^ 2 + 2 * v "x") % 2 ^ 32 :=
  contract_tool (polynomial2Inst_contract (F := F)) trivial (polynomial2Inst_hardware F)

/-- `MovingSum` without a scheduler option (or with `--pipeline 0`): exit code 1 and empty files. -/
theorem movingSum_needs_a_scheduler : ∃ w g, movingSum F World.init = .ok ((), w) ∧ Finished w g ∧
    ∀ (C : Type) (E : Whole.Env C) (b : String → Option Bool) (cfg : Cli.SimConfig) (sim : String → String → Files → Except Fault (Nat × Files))
      (name : String) (is : List Item) (ls : List String) (fs : Files),
      E.Fair w g → Line E.canOpen is ls → Pipelined is 0 → ∃ fs', tool E b cfg sim name w g ("hls" :: ls) fs = .ok (1, fs') ∧
        ∀ f, f = .FIRRTL ∨ f = .SVLibrary ∨ f = .SystemVerilog → Holds is fs' f "" := by
  obtain ⟨u, w, e2, hg, -, -⟩ := movingSum_does (F := F)
  obtain ⟨g, hf⟩ := hg.finished
  have hn : 1 ∈ g.nodes ∧ (w.view 1).op = .OFFSET := by
    have e : ((movingSum F World.init).toOption.map fun r => decide (1 ∈ (r.2.stack.map (·.nodes)).headD [] ∧ (r.2.view 1).op = .OFFSET)) = some true := by
      rfl
    rw [e2] at e
    simpa [Except.toOption, hf.only] using e
  exact ⟨w, g, e2, hf, fun C E b cfg sim name is ls fs hE hl hp => offsets_need_a_scheduler hg.hist hf hE hl hp hn.1 hn.2⟩

end

end Verif.Whole
