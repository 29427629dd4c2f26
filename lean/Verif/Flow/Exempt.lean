import Verif.Flow.Provenance
import Verif.Flow.Compiled
/-
Kernels whose nodes have their signedness by width, except for values that are never buffered (`SignsBut`): no buffers are mixed.
-/
namespace Verif.Flow
open Verif.Dfcxx Verif.Sched

section
variable {F : FloatOps} {w : World} {g : KGraph} {G : TopSort.Graph Nat} {E : Nat → Prop}

theorem SignsBut.perm {V : Nat → NodeV} {a b : List Nat} (h : SignsBut V b E) (hp : a.Perm b) : SignsBut V a E :=
  ⟨fun m hm n hn => h.signs m (hp.mem_iff.mp hm) n (hp.mem_iff.mp hn), fun n hn => h.calm n (hp.mem_iff.mp hn), fun n hn => h.noOff n (hp.mem_iff.mp hn)⟩

theorem asap_noMixed (h : Hist F Proper World.init w) (hf : Finished w g) (he : Enumeration w g G)
    (file : Option Config.JsonDoc) (H : HwHandled w.view (fun n => nodeLatency file (w.view n)) g.nodes) (hE : SignsBut w.view g.nodes E)
    {order : List Nat} {prog : List DStmt} (ht : TopSort.topSort G = .ok order) (hb : buildBody w.view order = .ok prog)
    {bs : List (Sched.Chan × Int)}
    (hbs : bs.Perm (buffersFor (progOf prog) (latOf file (opsOf prog)) (asap (progOf prog) (latOf file (opsOf prog))).time)) {X : Prog}
    (hX : applySchedule (progOf prog) bs = .ok X) : NoMixedBuffers (opTy (opsOf prog)) X := by
  obtain ⟨order', h1, h2, h3, h4, -⟩ := finished_kernel_is_processable h hf he
  rw [ht] at h1; cases h1
  rw [buildBody_exact w.view order h3 h4] at hb; cases hb
  have K := H.compilable h2 h3 h4 (latOf_ok file h4) (fun n hn => latOf_node file hn (h4 n hn))
  have hP := block_wf K.topo K.compl K.offs
  have hr := H.reads' h2
  exact noMixed_but K (hE.perm h2) hr (fun c hc hs => asap_calm hP (latOk K) (block_calm K (hE.perm h2) hr) hc hs)
    (fun p hp => hbs.mem_iff.1 hp) hX

theorem lp_noMixed (h : Hist F Proper World.init w) (hf : Finished w g) (he : Enumeration w g G)
    (file : Option Config.JsonDoc) (H : HwHandled w.view (fun n => nodeLatency file (w.view n)) g.nodes) (hE : SignsBut w.view g.nodes E)
    {order : List Nat} {prog : List DStmt} (ht : TopSort.topSort G = .ok order) (hb : buildBody w.view order = .ok prog) {x : Nat → ℚ}
    (ho : Optimal (lpBuild (progOf prog) (latOf file (opsOf prog))) x) (hx : Extreme (lpBuild (progOf prog) (latOf file (opsOf prog))) x)
    {perm : List (Sched.Chan × Int) → List (Sched.Chan × Int)} (hp : ∀ l, (perm l).Perm l) {r : PassResult}
    (hX : lpRun (progOf prog) (latOf file (opsOf prog)) (.solved x) perm = .ok r) : NoMixedBuffers (opTy (opsOf prog)) r.prog := by
  obtain ⟨order', h1, h2, h3, h4, -⟩ := finished_kernel_is_processable h hf he
  rw [ht] at h1; cases h1
  rw [buildBody_exact w.view order h3 h4] at hb; cases hb
  have K := H.compilable h2 h3 h4 (latOf_ok file h4) (fun n hn => latOf_node file hn (h4 n hn))
  have hP := block_wf K.topo K.compl K.offs
  have hr := H.reads' h2
  have hi := lp_vertex_integral hP hx
  have hbe := lpBuffers_eq hP ho.1 hi
  unfold lpRun at hX
  split at hX
  · cases hX
  · rename_i X hap
    cases hX
    refine noMixed_but K (hE.perm h2) hr (T := intTimes _ _ x) (fun c hc hs => lp_calm hP (latOk K) (block_calm K (hE.perm h2) hr) ho hi hc hs)
      (fun p hp' => ?_) hap
    have := (hp _).mem_iff.1 hp'
    exact Eq.mp (congrArg (p ∈ ·) hbe) this

end

end Verif.Flow
