import Verif.Vlog.Tool
import Verif.Vlog.Bounded
import Verif.Whole.Kernels
import Verif.Kernels.Size
import Verif.Sdf.Kernels
/-
C87: from the arguments of the program, for the kernels of the standard library and of /repo/examples, to the Verilog modules in the library file.
-/
namespace Verif.Vlog
open Verif.Hw Verif.Flow Verif.Dfcxx Verif.Sched Verif.Driver Verif.Cli.Spec Verif.Whole
open Verif.Config (Format)
open Verif.Kernels (Build Adds)

/-! ### Specification -/

/-- `Flat.ShowsAll` with the Verilog modules `as` in place of the external modules of the circuit. -/
def LibShowsAll (as : List Mod) (cells : Nat → Cell) (size : Nat) (ins : List (String × Nat)) (outs : List Flat.OutPort) : Prop :=
  (∀ (port : Flat.Env) (oob : FVal → List FVal → FVal), Flat.Fits ins port → OobOK oob → ∃ σ, LibRun as cells size port oob σ) ∧
  ∀ o ∈ outs, ∃ wire delay : Nat, wire < size ∧ (∃ ty src, cells wire = .output o.name ty (some src)) ∧
    ∀ (port : Flat.Env) (oob : FVal → List FVal → FVal), Flat.Fits ins port → OobOK oob →
      ∀ σ, LibRun as cells size port oob σ → ∀ t, o.start ≤ t → σ wire (delay + t) = ⟨o.signed, o.bits, (o.val port t).toNat⟩

/-- `Kernels.Shows` with the Verilog modules `as`. -/
def LibShows (as : List Mod) (cells : Nat → Cell) (size : Nat) (ins : List (String × Nat)) (out : String) (k : Nat)
    (P : (String → Nat) → BitVec k → Prop) : Prop :=
  ∃ (wire delay : Nat) (ty : FTy) (src : Nat), wire < size ∧ cells wire = .output out ty (some src) ∧
    ∀ (port : String → Nat → Nat) (oob : FVal → List FVal → FVal), (∀ i ∈ ins, ∀ t, port i.1 t < 2 ^ i.2) → OobOK oob →
      (∃ σ, LibRun as cells size port oob σ) ∧
      ∀ σ, LibRun as cells size port oob σ → ∀ t, ∃ y : BitVec k, σ wire (delay + t) = ⟨false, k, y.toNat⟩ ∧ P (fun name => port name t) y

/-- The tool linked with the kernel whose constructor is `p`, for every documented command line with `-a` or `-l` (`any`: or with neither, or with
`--pipeline` and fewer than 2^31 stages) and every latency configuration whose units have at most `cap` stages (`signed`: and in which integer arithmetic has
at least one): the run ends; and if the circuit passes CIRCT's verifier, then the file named by `--out-sv-lib` holds Verilog modules with different names
with which the circuit is `Good`. -/
def ToolLibrary (p : Build Unit) (any signed : Bool) (cap : Nat) (Good : List Mod → (Nat → Cell) → Nat → Prop) : Prop :=
  ∃ w g, p World.init = .ok ((), w) ∧ Finished w g ∧
    ∀ (C : Type) (E : Env C) (b : String → Option Bool) (cfg : Cli.SimConfig) (sim : String → String → Files → Except Fault (Nat × Files))
      (name : String) (is : List Cli.Spec.Item) (ls : List String) (fs : Files),
      E.Fair w g → WritesLibrary E → Whole.Line E.canOpen is ls →
      (Item.asap ∈ is ∨ Item.linear ∈ is ∨ any = true ∧ ∃ n, n < 2 ^ 31 ∧ Pipelined is n) →
      (∀ file, Configured E.config is file → AtMost file cap ∧ (signed = true → Flat.StagesGiven file)) →
      ∃ cells size code fs', tool E b cfg sim name w g ("hls" :: ls) fs = .ok (code, fs') ∧ Delivered E name w g is fs cells size code fs' ∧
        (E.firrtlOK cells size = true → ∀ v, Item.out .SVLibrary v ∈ is →
          ∃ text as, fs' (v.getD (outDefault .SVLibrary)) = some text ∧ read text.toList = some as ∧ (as.map Mod.name).Nodup ∧ Good as cells size)

/-! ### Proof -/

theorem ShowsAll.lib {cells : Nat → Cell} {size : Nat} {ins : List (String × Nat)} {outs : List Flat.OutPort} {as : List Mod}
    (hs : Flat.ShowsAll cells size ins outs) (h : ∀ port oob σ, LibRun as cells size port oob σ ↔ ∃ reg, CircuitRun cells size port oob reg σ) :
    LibShowsAll as cells size ins outs := by
  refine ⟨fun port oob hp ho => ?_, fun o hmem => ?_⟩
  · obtain ⟨σ, hσ⟩ := hs.1 port oob (fun _ _ => 0) hp ho
    exact ⟨σ, (h port oob σ).mpr ⟨_, hσ⟩⟩
  · obtain ⟨wire, delay, g1, g2, g3⟩ := hs.2 o hmem
    refine ⟨wire, delay, g1, g2, fun port oob hp ho σ hσ => ?_⟩
    obtain ⟨reg, hr⟩ := (h port oob σ).mp hσ
    exact g3 port oob reg hp ho σ hr

theorem Shows.lib {cells : Nat → Cell} {size : Nat} {ins : List (String × Nat)} {out : String} {k : Nat} {P : (String → Nat) → BitVec k → Prop}
    {as : List Mod} (hs : Kernels.Shows cells size ins out k P)
    (h : ∀ port oob σ, LibRun as cells size port oob σ ↔ ∃ reg, CircuitRun cells size port oob reg σ) : LibShows as cells size ins out k P := by
  obtain ⟨wire, delay, ty, src, g1, g2, g3⟩ := hs
  refine ⟨wire, delay, ty, src, g1, g2, fun port oob hp ho => ⟨?_, fun σ hσ => ?_⟩⟩
  · obtain ⟨⟨σ, hσ⟩, -⟩ := g3 port oob (fun _ _ => 0) hp ho
    exact ⟨σ, (h port oob σ).mpr ⟨_, hσ⟩⟩
  · obtain ⟨reg, hr⟩ := (h port oob σ).mp hσ
    exact (g3 port oob reg hp ho).2 σ hr

theorem library_of {p : Build Unit} {any signed offs : Bool} {cap : Nat} {Good : (Nat → Cell) → Nat → Prop} {Good' : List Mod → (Nat → Cell) → Nat → Prop}
    (h : ToolMakesFrom p any signed offs Good)
    (hlib : ∀ as cells size, Good cells size → (∀ port oob σ, LibRun as cells size port oob σ ↔ ∃ reg, CircuitRun cells size port oob reg σ) → Good' as cells size)
    (hm : ∀ w g, p World.init = .ok ((), w) → Finished w g → Dfcxx.Inv w → (offs = false → ∀ n ∈ g.nodes, (w.view n).op ≠ .OFFSET) →
      ModestWith w.view g.nodes cap) : ToolLibrary p any signed cap Good' := by
  obtain ⟨w, g, h1, h2, h0, h3⟩ := h
  refine ⟨w, g, h1, h2, fun C E b cfg sim name is ls fs hE hW hl ha hs => ?_⟩
  obtain ⟨cells, size, code, fs', r1, r2, r3, F, L, file, o1, o2, o3, o4⟩ := h3 C E b cfg sim name is ls fs hE hl ha fun e file hc => (hs file hc).2 e
  refine ⟨cells, size, code, fs', r1, r2, fun hok v hv => ?_⟩
  have hmod := hm w g h1 h2 (inv_hist (fun _ _ h => h.1.1) o1 inv_init) h0
  have hc : Compiled w g file cells size := o4.elim (·.compiled) (·.2)
  have hb := compiled_bounded o1 h2 o2 (hs file o3).1 hmod hc
  have hsh : Shape w g cells size := o4.elim (scheduled_shape o1 h2 o2) fun x => compiled_shape o1 h2 o2 x.1 x.2
  obtain ⟨text, as, t1, t2, t3, t4⟩ := shape_library o2 hW hsh hb r2 hok hv
  exact ⟨text, as, t1, t2, t3, hlib as cells size r3 t4⟩

theorem library_of_adds {p : Build Unit} {any signed : Bool} {cap k : Nat} {Good : (Nat → Cell) → Nat → Prop}
    {Good' : List Mod → (Nat → Cell) → Nat → Prop} (h : ToolMakesFrom p any signed false Good)
    (hlib : ∀ as cells size, Good cells size → (∀ port oob σ, LibRun as cells size port oob σ ↔ ∃ reg, CircuitRun cells size port oob reg σ) → Good' as cells size)
    (ha : Adds p k) (hk : cap * (k + 1) < 2 ^ 31) : ToolLibrary p any signed cap Good' :=
  library_of h hlib fun _ _ e hf hi hof => modestWith_of (hof rfl) (ha.nodes hi e hf) hk

section
variable {F : FloatOps}
open Flat Kernels

theorem addConst_library : ToolLibrary (addConst F) true false 65535 fun as c s =>
    LibShowsAll as c s [("x", 32)] [out32 "out" fun port t => 3 * at32 port "x" t + 5] :=
  library_of_adds (any_from (F := F) (K := plainCfg [("x", 32)]) addConst_does (fun _ => rfl) rfl rfl) (fun _ _ _ => ShowsAll.lib) (addConst_adds F) (by decide)

theorem polynomial2_library : ToolLibrary (polynomial2 F) true false 65535 fun as c s =>
    LibShowsAll as c s [("x", 32)] [out32 "out" fun port t => at32 port "x" t ^ 2 + 2 * at32 port "x" t] :=
  library_of_adds (any_from (F := F) (K := plainCfg [("x", 32)]) polynomial2_does (fun _ => rfl) rfl rfl) (fun _ _ _ => ShowsAll.lib) (polynomial2_adds F)
    (by decide)

theorem scalar3_library : ToolLibrary (scalar3 F) true false 65535 fun as c s =>
    LibShowsAll as c s [("x1", 32), ("y1", 32), ("x2", 32), ("y2", 32), ("x3", 32), ("y3", 32)]
      [out32 "out" fun port t => at32 port "x1" t * at32 port "y1" t + at32 port "x2" t * at32 port "y2" t + at32 port "x3" t * at32 port "y3" t] :=
  library_of_adds (any_from (F := F) (K := plainCfg [("x1", 32), ("y1", 32), ("x2", 32), ("y2", 32), ("x3", 32), ("y3", 32)]) scalar3_does (fun _ => rfl) rfl
    rfl) (fun _ _ _ => ShowsAll.lib) (scalar3_adds F) (by decide)

theorem matrixMul2_library : ToolLibrary (matrixMul2 F) true false 65535 fun as c s => LibShowsAll as c s matrixIns
    [out32 "out11" (rowByColumn "x11" "x12" "y11" "y21"), out32 "out12" (rowByColumn "x11" "x12" "y12" "y22"),
      out32 "out21" (rowByColumn "x21" "x22" "y11" "y21"), out32 "out22" (rowByColumn "x21" "x22" "y12" "y22")] :=
  library_of_adds (any_from (F := F) (K := plainCfg matrixIns) matrixMul2_does (fun _ => rfl) rfl rfl) (fun _ _ _ => ShowsAll.lib) (matrixMul2_adds F)
    (by decide)

theorem muxMul_library : ToolLibrary (muxMul F) true false 65535 fun as c s => LibShowsAll as c s [("x", 32), ("ctrl", 1)]
    [out32 "out" fun port t => if port "ctrl" t = 1 then 2 * at32 port "x" t else 0] :=
  library_of_adds (any_from (F := F) (K := plainCfg [("x", 32), ("ctrl", 1)]) muxMul_does (fun _ => rfl) rfl rfl) (fun _ _ _ => ShowsAll.lib) (muxMul_adds F)
    (by decide)

theorem movingSum_library : ToolLibrary (movingSum F) false false 65535 fun as c s => LibShowsAll as c s [("x", 32)]
    [⟨"out", 32, false, 1, fun port t => at32 port "x" (t - 1) + at32 port "x" t + at32 port "x" (t + 1)⟩] :=
  library_of (scheduled_from (F := F) (K := movingCfg) movingSum_does (.inl fun _ => rfl)) (fun _ _ _ => ShowsAll.lib)
    fun _ _ e hf _ _ => Sdf.movingSum_modest e hf

theorem rowIdct_library : ToolLibrary (rowIdct F) false true 65535 fun as c s => LibShowsAll as c s rowIns rowOuts :=
  library_of_adds (scheduled_from (F := F) (K := rowCfg) rowIdct_does (.inl fun _ => rfl)) (fun _ _ _ => ShowsAll.lib) (rowIdct_adds F) (by decide)

theorem idct_library : ToolLibrary (idct F) false true 65535 fun as c s => LibShowsAll as c s [("x", 768)] [idctOut] :=
  library_of_adds (scheduled_from (F := F) (K := idctCfg) idct_does (.inr rfl)) (fun _ _ _ => ShowsAll.lib) (idct_adds F) (by decide)

theorem galois8Mul_library : ToolLibrary (galois8Mul F) true false 65535 fun as c s => LibShows as c s [("left", 8), ("right", 8)] "result" 8 fun v y =>
    Std.poly y = (Std.poly (BitVec.ofNat 8 (v "left")) * Std.poly (BitVec.ofNat 8 (v "right"))) %ₘ Std.fieldPoly :=
  library_of_adds (contract_from (galois8Mul_contract (F := F) (Z := onlyLeft) (by simp [onlyLeft])) trivial (galois8Mul_hardware F))
    (fun _ _ _ => Shows.lib) (galois8Mul_adds F) (by decide)

theorem magmaEncoder_library : ToolLibrary (magmaEncoder F) true false 65535 fun as c s =>
    LibShows as c s [("block", 64), ("key", 256)] "encoded" 64 fun v y =>
      Std.Gost.IsMagmaEncrypt (BitVec.ofNat 256 (v "key")) (BitVec.ofNat 64 (v "block")) y :=
  library_of_adds (contract_from (magmaEncoder_contract (F := F) (Z := onlyLeft) (by simp [onlyLeft]) (by simp [onlyLeft])) trivial (magmaEncoder_hardware F))
    (fun _ _ _ => Shows.lib) (magmaEncoder_adds F) (by decide)

theorem magmaDecoder_library : ToolLibrary (magmaDecoder F) true false 65535 fun as c s =>
    LibShows as c s [("encoded", 64), ("key", 256)] "block" 64 fun v y =>
      Std.Gost.IsMagmaDecrypt (BitVec.ofNat 256 (v "key")) (BitVec.ofNat 64 (v "encoded")) y :=
  library_of_adds (contract_from (magmaDecoder_contract (F := F) (Z := onlyLeft) (by simp [onlyLeft]) (by simp [onlyLeft])) trivial (magmaDecoder_hardware F))
    (fun _ _ _ => Shows.lib) (magmaDecoder_adds F) (by decide)

/-- `KuznechikEncoder` of the standard library; its many units are why the configuration must stay below 733 stages. -/
theorem kuznechikEncoder_library (opt : Bool) : ToolLibrary (kuznechikEncoder F (stdVariant opt)) true false 732 fun as c s =>
    LibShows as c s [("block", 128), ("key", 256)] "encoded" 128 fun v y =>
      Std.Gost.IsKuznechikEncrypt (BitVec.ofNat 256 (v "key")) (BitVec.ofNat 128 (v "block")) y :=
  library_of_adds (contract_from (kuznechikEncoder_contract (F := F) onlyLeft_names (stdVariant opt)) rfl (kuznechikEncoder_hardware F opt))
    (fun _ _ _ => Shows.lib) (kuznechikEncoder_adds F _) (by decide)

theorem kuznechikDecoder_library (opt : Bool) : ToolLibrary (kuznechikDecoder F (stdVariant opt)) true false 732 fun as c s =>
    LibShows as c s [("encoded", 128), ("key", 256)] "block" 128 fun v y =>
      Std.Gost.IsKuznechikDecrypt (BitVec.ofNat 256 (v "key")) (BitVec.ofNat 128 (v "encoded")) y :=
  library_of_adds (contract_from (kuznechikDecoder_contract (F := F) onlyLeft_names (v := stdVariant opt) rfl) rfl (kuznechikDecoder_hardware F opt))
    (fun _ _ _ => Shows.lib) (kuznechikDecoder_adds F _) (by decide)

theorem exampleEncoder_library (mul : MulBy) : ToolLibrary (kuznechikEncoder F (exampleEncoder mul)) true false 732 fun as c s =>
    LibShows as c s [("block", 128), ("key", 256)] "encoded" 128 fun v y =>
      Std.Gost.IsKuznechikEncrypt (BitVec.ofNat 256 (v "key")) (BitVec.ofNat 128 (v "block")) y :=
  library_of_adds (contract_from (kuznechikEncoder_contract (F := F) onlyLeft_names (exampleEncoder mul)) rfl (exampleEncoder_hardware F mul))
    (fun _ _ _ => Shows.lib) (kuznechikEncoder_adds F _) (by decide)

theorem exampleDecoder_library (mul : MulBy) : ToolLibrary (kuznechikDecoder F (exampleDecoder mul)) true false 732 fun as c s =>
    LibShows as c s [("encoded", 128), ("key", 256)] "block" 128 fun v y =>
      Std.Gost.IsKuznechikDecrypt (BitVec.ofNat 256 (v "key")) (BitVec.ofNat 128 (v "encoded")) y :=
  library_of_adds (contract_from (kuznechikDecoder_contract (F := F) onlyLeft_names (v := exampleDecoder mul) rfl) rfl (exampleDecoder_hardware F mul))
    (fun _ _ _ => Shows.lib) (kuznechikDecoder_adds F _) (by decide)

theorem polynomial2Inst_library : ToolLibrary (polynomial2Inst F) true false 65535 fun as c s =>
    LibShows as c s [("x", 32)] "out" 32 fun v y => y.toNat = (v "x" ^ 2 + 2 * v "x") % 2 ^ 32 :=
  library_of_adds (contract_from (polynomial2Inst_contract (F := F)) trivial (polynomial2Inst_hardware F)) (fun _ _ _ => Shows.lib) (polynomial2Inst_adds F)
    (by decide)

/-- Kuznechik: without configuration, the bound on the stages is met. -/
example : AtMost none 732 := fun k fl => Nat.le_trans (atMost_none k fl) (by decide)

end
end Verif.Vlog
