import Verif.Flow.Props
import Verif.Sched.LpExists
/-
The designs the compiler may produce for a kernel.
-/
namespace Verif.Flow
open Verif.Dfcxx Verif.Hw Verif.Sched

/-- `cells` (of `size` operations) is a design the compiler may produce for the finished kernel `g`: for some enumeration of the hash sets
and some order of the buffer map, by one of the three scheduling passes.  `blk`: the order of the operations in the block. -/
inductive Compiled (w : World) (g : KGraph) (file : Option Config.JsonDoc) : (Nat → Cell) → Nat → Prop
  | asap {G : TopSort.Graph Nat} {order : List Nat} {prog : List DStmt} {bs : List (Sched.Chan × Int)} {X : Prog} {blk : List Nat} :
      Enumeration w g G → TopSort.topSort G = .ok order → buildBody w.view order = .ok prog →
      bs.Perm (buffersFor (progOf prog) (latOf file (opsOf prog)) (asap (progOf prog) (latOf file (opsOf prog))).time) →
      applySchedule (progOf prog) bs = .ok X → BlockOrder X blk →
      Compiled w g file (circuitOf (opsOf prog) X (latOf file (opsOf prog)) blk) X.size
  | lp {G : TopSort.Graph Nat} {order : List Nat} {prog : List DStmt} {x : Nat → ℚ} {perm : List (Sched.Chan × Int) → List (Sched.Chan × Int)}
      {r : PassResult} {blk : List Nat} :
      Enumeration w g G → TopSort.topSort G = .ok order → buildBody w.view order = .ok prog →
      Optimal (lpBuild (progOf prog) (latOf file (opsOf prog))) x → Extreme (lpBuild (progOf prog) (latOf file (opsOf prog))) x →
      (∀ l, (perm l).Perm l) → lpRun (progOf prog) (latOf file (opsOf prog)) (.solved x) perm = .ok r → BlockOrder r.prog blk →
      Compiled w g file (circuitOf (opsOf prog) r.prog (latOf file (opsOf prog)) blk) r.prog.size
  | comb {G : TopSort.Graph Nat} {order : List Nat} {prog : List DStmt} {A : FloatArith} {stages : Nat}
      {perm : List (Sched.Chan × Int) → List (Sched.Chan × Int)} {X : Prog} {blk : List Nat} :
      Enumeration w g G → TopSort.topSort G = .ok order → buildBody w.view order = .ok prog →
      stages < 2 ^ 31 → (∀ l, (perm l).Perm l) → combPipeline A stages perm (progOf prog) = .ok X → BlockOrder X blk →
      Compiled w g file (circuitOf (opsOf prog) X (fun _ => 0) blk) X.size

/-- The same by one of the two passes that read the latency configuration. -/
inductive Scheduled (w : World) (g : KGraph) (file : Option Config.JsonDoc) : (Nat → Cell) → Nat → Prop
  | asap {G : TopSort.Graph Nat} {order : List Nat} {prog : List DStmt} {bs : List (Sched.Chan × Int)} {X : Prog} {blk : List Nat} :
      Enumeration w g G → TopSort.topSort G = .ok order → buildBody w.view order = .ok prog →
      bs.Perm (buffersFor (progOf prog) (latOf file (opsOf prog)) (asap (progOf prog) (latOf file (opsOf prog))).time) →
      applySchedule (progOf prog) bs = .ok X → BlockOrder X blk →
      Scheduled w g file (circuitOf (opsOf prog) X (latOf file (opsOf prog)) blk) X.size
  | lp {G : TopSort.Graph Nat} {order : List Nat} {prog : List DStmt} {x : Nat → ℚ} {perm : List (Sched.Chan × Int) → List (Sched.Chan × Int)}
      {r : PassResult} {blk : List Nat} :
      Enumeration w g G → TopSort.topSort G = .ok order → buildBody w.view order = .ok prog →
      Optimal (lpBuild (progOf prog) (latOf file (opsOf prog))) x → Extreme (lpBuild (progOf prog) (latOf file (opsOf prog))) x →
      (∀ l, (perm l).Perm l) → lpRun (progOf prog) (latOf file (opsOf prog)) (.solved x) perm = .ok r → BlockOrder r.prog blk →
      Scheduled w g file (circuitOf (opsOf prog) r.prog (latOf file (opsOf prog)) blk) r.prog.size

theorem Scheduled.compiled {w : World} {g : KGraph} {file : Option Config.JsonDoc} {cells : Nat → Cell} {size : Nat}
    (h : Scheduled w g file cells size) : Compiled w g file cells size := by
  cases h with
  | asap h1 h2 h3 h4 h5 h6 => exact .asap h1 h2 h3 h4 h5 h6
  | lp h1 h2 h3 h4 h5 h6 h7 h8 => exact .lp h1 h2 h3 h4 h5 h6 h7 h8

variable {F : FloatOps} {w : World} {g : KGraph}

/-- Every design the compiler may produce for a kernel without offsets computes its streams. -/
theorem compiled_computes (h : Hist F Proper World.init w) (hf : Finished w g) {file : Option Config.JsonDoc} (H : ∀ L, Handled w.view L g.nodes)
    (hof : ∀ n ∈ g.nodes, (w.view n).op ≠ .OFFSET) {cells : Nat → Cell} {size : Nat} (hc : Compiled w g file cells size) :
    Computes w.view g.nodes cells size := by
  cases hc with
  | asap he ht hb hp ha hk =>
    obtain ⟨order', prog', h1, h2, h3⟩ := asap_compile_computes h hf he file (H _)
    rw [ht] at h1; cases h1
    rw [hb] at h2; cases h2
    obtain ⟨X', h4, h5⟩ := h3 _ hp
    rw [ha] at h4; cases h4
    exact h5 _ hk
  | lp he ht hb ho hx hp ha hk =>
    obtain ⟨order', prog', h1, h2, h3⟩ := lp_compile_computes h hf he file (H _)
    rw [ht] at h1; cases h1
    rw [hb] at h2; cases h2
    obtain ⟨X', h4, h5⟩ := h3 _ ho hx _ hp
    rw [ha] at h4; cases h4
    exact h5 _ hk
  | comb he ht hb hst hp ha hk =>
    obtain ⟨order', prog', h1, h2, h3⟩ := comb_compile_computes h hf he (H _) hof
    rw [ht] at h1; cases h1
    rw [hb] at h2; cases h2
    exact h3 _ _ hst _ hp _ ha _ hk

/-- **C68.**  Every design the compiler may produce for a kernel without offsets computes its streams as the hardware of the operators
defines them, if widths determine signedness. -/
theorem compiled_hw (h : Hist F Proper World.init w) (hf : Finished w g) {file : Option Config.JsonDoc} (H : ∀ L, HwHandled w.view L g.nodes)
    (hof : ∀ n ∈ g.nodes, (w.view n).op ≠ .OFFSET) (hsg : SignsByWidth w.view g.nodes) {cells : Nat → Cell} {size : Nat}
    (hc : Compiled w g file cells size) : HwComputes w.view g.nodes cells size := by
  cases hc with
  | asap he ht hb hp ha hk =>
    obtain ⟨order', prog', h1, h2, h3⟩ := asap_compile_hw h hf he file (H _)
    rw [ht] at h1; cases h1
    rw [hb] at h2; cases h2
    obtain ⟨X', h4, h5⟩ := h3 _ hp
    rw [ha] at h4; cases h4
    exact h5 _ hk (.inl hsg)
  | lp he ht hb ho hx hp ha hk =>
    obtain ⟨order', prog', h1, h2, h3⟩ := lp_compile_hw h hf he file (H _)
    rw [ht] at h1; cases h1
    rw [hb] at h2; cases h2
    obtain ⟨X', h4, h5⟩ := h3 _ ho hx _ hp
    rw [ha] at h4; cases h4
    exact h5 _ hk (.inl hsg)
  | comb he ht hb hst hp ha hk =>
    obtain ⟨order', prog', h1, h2, h3⟩ := comb_compile_hw h hf he (H _) hof
    rw [ht] at h1; cases h1
    rw [hb] at h2; cases h2
    exact h3 _ _ hst _ hp _ ha _ hk (.inr (.inl hsg))

theorem sortGraph_enum : Enumeration w g (w.sortGraph g) :=
  ⟨.refl _, .refl _, fun n hn => by simp [World.sortGraph, hn], fun n hn => by simp [World.sortGraph, hn]⟩

/-- Compilation with the ASAP pass succeeds, for every enumeration of the hash sets and every order of the buffer map. -/
theorem asap_succeeds (h : Hist F Proper World.init w) (hf : Finished w g) (file : Option Config.JsonDoc)
    (H : ∀ L, Handled w.view L g.nodes) {G : TopSort.Graph Nat} (he : Enumeration w g G) :
    ∃ order prog, TopSort.topSort G = .ok order ∧ buildBody w.view order = .ok prog ∧
      ∀ bs, bs.Perm (buffersFor (progOf prog) (latOf file (opsOf prog)) (asap (progOf prog) (latOf file (opsOf prog))).time) →
        ∃ X, applySchedule (progOf prog) bs = .ok X ∧ Compiled w g file (circuitOf (opsOf prog) X (latOf file (opsOf prog)) (List.range X.size)) X.size := by
  obtain ⟨order, prog, h1, h2, h3⟩ := asap_compile_computes h hf he file (H _)
  refine ⟨order, prog, h1, h2, fun bs hbs => ?_⟩
  obtain ⟨X, h4, -⟩ := h3 bs hbs
  exact ⟨X, h4, .asap he h1 h2 hbs h4 ⟨List.nodup_range, fun v => List.mem_range⟩⟩

/-- Compilation with the linear-programming pass can succeed: the problem has an optimal extreme point, and for every such answer and every
order of the buffer map the pass finishes. -/
theorem lp_succeeds (h : Hist F Proper World.init w) (hf : Finished w g) (file : Option Config.JsonDoc)
    (H : ∀ L, Handled w.view L g.nodes) {G : TopSort.Graph Nat} (he : Enumeration w g G) :
    ∃ order prog, TopSort.topSort G = .ok order ∧ buildBody w.view order = .ok prog ∧
      (∃ x, Optimal (lpBuild (progOf prog) (latOf file (opsOf prog))) x ∧ Extreme (lpBuild (progOf prog) (latOf file (opsOf prog))) x) ∧
      ∀ x, Optimal (lpBuild (progOf prog) (latOf file (opsOf prog))) x → Extreme (lpBuild (progOf prog) (latOf file (opsOf prog))) x →
        ∀ perm : List (Sched.Chan × Int) → List (Sched.Chan × Int), (∀ l, (perm l).Perm l) →
          ∃ r, lpRun (progOf prog) (latOf file (opsOf prog)) (.solved x) perm = .ok r ∧
            Compiled w g file (circuitOf (opsOf prog) r.prog (latOf file (opsOf prog)) (List.range r.prog.size)) r.prog.size := by
  obtain ⟨order, prog, h1, h2, h3⟩ := lp_compile_computes h hf he file (H _)
  refine ⟨order, prog, h1, h2, ?_, fun x hx hext perm hp => ?_⟩
  · obtain ⟨order', g1, g2, g3, g4, -⟩ := finished_kernel_is_processable h hf he
    rw [h1] at g1; cases g1
    rw [buildBody_exact w.view order g3 g4] at h2; cases h2
    have K := ((H _).hw fun n hn => g4 n (g2.mem_iff.mpr hn)).compilable g2 g3 g4 (latOf_ok file g4) (fun n hn => latOf_node file hn (g4 n hn))
    obtain ⟨x, hx, hext, -⟩ := lp_has_optimal_vertex (block_wf K.topo K.compl K.offs) (latOf file (opsOf (block w.view order)))
    exact ⟨x, hx, hext⟩
  · obtain ⟨r, h4, -⟩ := h3 x hx hext perm hp
    exact ⟨r, h4, .lp he h1 h2 hx hext hp h4 ⟨List.nodup_range, fun v => List.mem_range⟩⟩

end Verif.Flow
