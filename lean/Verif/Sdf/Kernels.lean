import Verif.Sdf.Fit
import Verif.Flat.Top
import Verif.Flat.Small
import Verif.Flat.Idct
import Verif.Flat.RowIdct
import Verif.Kernels.Size
/-
C81 for kernels whose outputs are known (Verif/Flat): the design made from the scheduled DFCIR text shows them.
-/
namespace Verif.Sdf
open Verif.Dfcxx Verif.Flow Verif.Sched Verif.Text
open Verif.Kernels (Build)

section
variable {F : FloatOps} {C : Flat.Cfg} {w : World} {g : KGraph} {file : Option Config.JsonDoc} {prog : List DStmt} {bs : List (Sched.Chan × Int)}
  {X : Prog} {att : Nat → Int}

theorem pass_noMixed (hg : Flat.FGood F C [] w) (hf : Finished w g) (H : HwHandled w.view (fun n => nodeLatency file (w.view n)) g.nodes)
    (hof : C.offs = false) (hp : Pass w g file true prog bs X att) : NoMixedBuffers (opTy (opsOf prog)) X := by
  generalize hc : true = conf at hp
  cases hp with
  | asap he ht hb hbs ha => exact asap_noMixed hg.hist hf he file H (hg.signsBut hf hof) ht hb hbs ha
  | lp he ht hb hopt hext hbs ha =>
    refine lp_noMixed hg.hist hf he file H (hg.signsBut hf hof) ht hb hopt hext (orderFor_perm hbs) (r := ⟨X, 0⟩) ?_
    unfold lpRun
    rw [show ∀ l : List (Sched.Chan × Int), orderFor l bs l = bs from fun l => by simp [orderFor], ha]
  | comb0 => cases hc
  | comb => cases hc

/-- **C81, kernels.**  The kernel built by `p`, scheduled by ASAP or linear programming with any latency configuration (one that gives integer arithmetic at
least one stage if the kernel computes with signed numbers): reading the scheduled DFCIR text and converting it gives a design that shows the outputs. -/
theorem text_shows {p : Build Unit} {outs : List Flat.OutPort}
    (h : Flat.FDoes F C p World.init (fun _ => []) (fun _ w => ∀ o ∈ outs, Flat.Established C w o))
    (hx : (∀ k, C.exempt k = false) ∨ C.offs = false) :
    ∃ w g, p World.init = .ok ((), w) ∧ Finished w g ∧
      ∀ file, (C.signed = true → Flat.StagesGiven file) → ∀ prog bs X att, Pass w g file true prog bs X att → (ModestKernel w.view g.nodes ∨ ∀ p ∈ bs, p.2 < 2 ^ 31) →
      ∀ (name : String) (pick : IntAttr → IntAttr → IntAttr), (∀ a, pick a a = a) →
        ∃ txt cells size, schedText name prog bs X att = some txt ∧ convertText pick txt = some (cells, size) ∧ Flat.ShowsAll cells size C.ins outs := by
  obtain ⟨u, w, e2, hg, -, ho⟩ := h
  obtain ⟨g, hf⟩ := hg.finished
  refine ⟨w, g, e2, hf, fun file hs prog bs X att hp hfit name pick hpk => ?_⟩
  have H := hg.handled_file hf file hs
  have hfit : ∀ p ∈ bs, p.2 < 2 ^ 31 := hfit.elim (fun hm => hp.fits hg.hist hf H.offs hm) id
  obtain ⟨txt, cells, size, h1, h2, h3⟩ := scheduled_text_computes hg.hist hf (conf := true) (by unfold passLat; simpa using H) hp
    (hx.imp (hg.signs hf) fun hof => pass_noMixed hg hf H hof hp) hfit name hpk
  exact ⟨txt, cells, size, h1, h2, hg.shows hf ho h3⟩

/-- The state after the constructor of `MovingSum`. -/
def movingSumWorld (F : FloatOps) : World := match Flat.movingSum F World.init with
  | .ok (_, w) => w
  | .error _ => World.init

/-- `MovingSum` has six nodes and looks one cycle back and one ahead. -/
theorem movingSum_modest (h : Flat.movingSum F World.init = .ok ((), w)) (hf : Finished w g) : ModestKernel w.view g.nodes := by
  have e : Flat.movingSum F World.init = .ok ((), (movingSumWorld F)) := rfl
  rw [e] at h
  cases h
  have e2 := hf.only
  have : (movingSumWorld F).stack = [⟨0, [5, 4, 3, 2, 1, 0], [0], [("out", 5), ("x", 0)]⟩] := rfl
  rw [this] at e2
  cases e2
  have e3 : ([5, 4, 3, 2, 1, 0] : List Nat).map (fun n => away ((movingSumWorld F).view n)) = [0, 0, 0, |1|, |-1|, 0] := rfl
  unfold ModestKernel
  rw [e3]
  decide

/-- `MovingSum` of /repo/examples: whatever the pass and the configuration, the text describes a circuit whose output is the sum of three successive
inputs. -/
theorem movingSum_text : ∃ w g, Flat.movingSum F World.init = .ok ((), w) ∧ Finished w g ∧
    ∀ file prog bs X att, Pass w g file true prog bs X att → ∀ (name : String) (pick : IntAttr → IntAttr → IntAttr), (∀ a, pick a a = a) →
      ∃ txt cells size, schedText name prog bs X att = some txt ∧ convertText pick txt = some (cells, size) ∧
        Flat.ShowsAll cells size [("x", 32)]
          [⟨"out", 32, false, 1, fun port t => Flat.at32 port "x" (t - 1) + Flat.at32 port "x" t + Flat.at32 port "x" (t + 1)⟩] := by
  obtain ⟨w, g, h1, h2, h3⟩ := text_shows (F := F) (C := Flat.movingCfg) Flat.movingSum_does (.inl fun _ => rfl)
  have hm := movingSum_modest h1 h2
  exact ⟨w, g, h1, h2, fun file prog bs X att hp => h3 file (by intro h; cases h) prog bs X att hp (.inl hm)⟩

/-- Kernels without offsets and with at most 32766 nodes are modest. -/
theorem flat_modest {p : Build Unit} {outs : List Flat.OutPort}
    (h : Flat.FDoes F C p World.init (fun _ => []) (fun _ w => ∀ o ∈ outs, Flat.Established C w o)) (hof : C.offs = false) {k : Nat} (ha : Kernels.Adds p k)
    (hk : 65535 * (k + 1) < 2 ^ 31) (hp : p World.init = .ok ((), w)) (hf : Finished w g) : ModestKernel w.view g.nodes := by
  obtain ⟨u, w', e2, hg, -, -⟩ := h
  rw [hp] at e2; cases e2
  have hlen := ha.nodes (inv_hist (fun _ _ h => h.1.1) hg.hist inv_init) hp hf
  have : (g.nodes.map fun n => away (w.view n)).sum = 0 := by
    refine List.sum_eq_zero fun z hz => ?_
    obtain ⟨m, hm, rfl⟩ := List.mem_map.mp hz
    unfold away
    split
    · rename_i h1 _
      have := ((hg.node hf m hm).offTy h1).1
      rw [hof] at this; cases this
    · rfl
  unfold ModestKernel
  rw [this]
  have h2 : 65535 * (g.nodes.length + 1) < 2 ^ 31 := lt_of_le_of_lt (Nat.mul_le_mul_left _ (by omega)) hk
  have : ((65535 * (g.nodes.length + 1) : Nat) : Int) < 2 ^ 31 := by exact_mod_cast h2
  push_cast at this
  simpa using this

/-- `RowIDCT` of /repo/examples, for configurations that give integer arithmetic at least one stage. -/
theorem rowIdct_text : ∃ w g, Flat.rowIdct F World.init = .ok ((), w) ∧ Finished w g ∧
    ∀ file, Flat.StagesGiven file → ∀ prog bs X att, Pass w g file true prog bs X att →
      ∀ (name : String) (pick : IntAttr → IntAttr → IntAttr), (∀ a, pick a a = a) →
        ∃ txt cells size, schedText name prog bs X att = some txt ∧ convertText pick txt = some (cells, size) ∧
          Flat.ShowsAll cells size Flat.rowIns Flat.rowOuts := by
  obtain ⟨w, g, h1, h2, h3⟩ := text_shows (F := F) (C := Flat.rowCfg) Flat.rowIdct_does (.inl fun _ => rfl)
  exact ⟨w, g, h1, h2, fun file hs prog bs X att hp => h3 file (fun _ => hs) prog bs X att hp
    (.inl (flat_modest (F := F) (C := Flat.rowCfg) Flat.rowIdct_does rfl (Kernels.rowIdct_adds F) (by decide) h1 h2))⟩

/-- `IDCT` of /repo/examples. -/
theorem idct_text : ∃ w g, Flat.idct F World.init = .ok ((), w) ∧ Finished w g ∧
    ∀ file, Flat.StagesGiven file → ∀ prog bs X att, Pass w g file true prog bs X att →
      ∀ (name : String) (pick : IntAttr → IntAttr → IntAttr), (∀ a, pick a a = a) →
        ∃ txt cells size, schedText name prog bs X att = some txt ∧ convertText pick txt = some (cells, size) ∧
          Flat.ShowsAll cells size [("x", 768)] [Flat.idctOut] := by
  obtain ⟨w, g, h1, h2, h3⟩ := text_shows (F := F) (C := Flat.idctCfg) Flat.idct_does (.inr rfl)
  exact ⟨w, g, h1, h2, fun file hs prog bs X att hp => h3 file (fun _ => hs) prog bs X att hp
    (.inl (flat_modest (F := F) (C := Flat.idctCfg) Flat.idct_does rfl (Kernels.idct_adds F) (by decide) h1 h2))⟩

end
end Verif.Sdf
