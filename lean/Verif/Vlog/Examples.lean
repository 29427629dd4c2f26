import Verif.Vlog.Tool
import Verif.Flow.Examples
/-
C80 on concrete libraries.
-/
namespace Verif.Vlog
open Verif.Tpl Verif.Hw Verif.Flow Verif.Dfcxx Verif.Sched

def exFifo : Module := createModule (.fifo (.bits 8) 2)
def exCast : Module := createModule (.unit .cast [.bits 8] (.fixed true 10 0) 0)
def exAdd : Module := createModule (.unit .add [.bits 8, .bits 8] (.bits 8) 3)
/-- Signed and without registers. -/
def exBad : Module := createModule (.unit .add [.fixed true 7 0, .fixed true 7 0] (.fixed true 7 0) 0)

theorem ex_fit : ∀ m ∈ [exFifo, exCast, exAdd, exBad], Fit m := by
  intro m hm
  simp only [List.mem_cons, List.not_mem_nil, or_false] at hm
  rcases hm with rfl | rfl | rfl | rfl
  · exact fit_create (by decide) (by decide) (by decide) (fun t l e => by cases e; decide) (fun _ _ _ e => by cases e) (fun _ _ _ _ e => by cases e)
  · exact fit_create (by decide) (by decide) (by decide) (fun t l e => by cases e) (fun _ _ _ e => by cases e; rfl)
      (fun _ _ _ _ e h => by cases e; exact absurd rfl h)
  · exact fit_create (by decide) (by decide) (by decide) (fun t l e => by cases e) (fun _ _ _ e => by cases e) (fun _ _ _ _ e => by cases e; intros; rfl)
  · exact fit_create (by decide) (by decide) (by decide) (fun t l e => by cases e) (fun _ _ _ e => by cases e) (fun _ _ _ _ e => by cases e; intros; rfl)

/-- It delays by two cycles: the text, read and run. -/
theorem ex_fifo_delays (x : Nat → Nat) (hx : ∀ t, x t < 256) : ∃ a, read (libText [exFifo] "now".toList) = some [a] ∧
    (∃ ρ, Run a ρ ∧ ∀ t, (ρ t).vec "arg1" = x t) ∧ ∀ ρ, Run a ρ → (∀ t, (ρ t).vec "arg1" = x t) → ∀ t, (ρ (t + 2)).vec "res1" = x t := by
  refine ⟨fifoMod "__FIFO_IN_8_OUT_8_2" (8 - 1) (2 - 1), ?_, ?_, fun ρ hρ ha t => ?_⟩
  · rw [lib_read (fun m h => (ex_fit m (by simp only [List.mem_cons, List.not_mem_nil, or_false] at h ⊢; exact .inl h)).toLibOK) (by decide)]
    kernel_rfl
  · obtain ⟨ρ, h1, h2, -⟩ := fifo_exists "__FIFO_IN_8_OUT_8_2" (w := 8) (L := 2) (by decide) (by decide) (fun t => BitVec.ofNat 8 (x t)) (fun _ => 0)
    refine ⟨ρ, h1, fun t => ?_⟩
    rw [h2 t, BitVec.toNat_ofNat, Nat.mod_eq_of_lt (hx t)]
  · have ha' : ∀ t, (ρ t).vec "arg1" = (BitVec.ofNat 8 (x t)).toNat := fun t => by rw [ha t, BitVec.toNat_ofNat, Nat.mod_eq_of_lt (hx t)]
    rw [fifo_run (by decide) (by decide) (by decide) hρ ha' (t + 2), fifo_exact_delay 2 (by decide)]
    rw [BitVec.toNat_ofNat, Nat.mod_eq_of_lt (hx t)]

/-- An adder with a signed result and no registers has no run: its text is not legal (C54). -/
theorem ex_bad_never_runs (xs : List (Nat → FVal)) (y : Nat → FVal) : ¬ ∃ a, astOf exBad = some a ∧ InstRun a exBad xs y := by
  rw [inst_iff (ex_fit exBad (by simp))]
  rintro ⟨reg, h⟩
  have h0 := h 0
  have hs : stubOf exBad.name = some (.binary .add) := by
    rw [show exBad.name = constructModuleName (.unit .add [.fixed true 7 0, .fixed true 7 0] (.fixed true 7 0) 0) from rfl, stub_selection]; rfl
  unfold instOut at h0
  rw [hs] at h0
  split at h0
  · rename_i e _; cases e
  · rename_i e _; cases e
  · split at h0
    · rename_i e _ _ _
      simp [binaryModule, combBinary, exBad, createModule, posLatency, convertType, ftySigned] at h0
    · cases h0
  · cases h0

/-- Without a scheduler option nothing has registers. -/
theorem comb_bounded {V : Nat → NodeV} {order : List Nat} (hto : TopoOrder V order) (hc : ∀ n ∈ order, Complete V n) {blk : List Nat}
    (hblk : BlockOrder (progOf (block V order)) blk) :
    Bounded (circuitOf (opsOf (block V order)) (progOf (block V order)) (fun _ => 0) blk) (progOf (block V order)).size := by
  intro v hv m args hcell
  have hmem := (List.of_mem_zip (mem_of_lookup_nat (cell_inst hcell))).2
  obtain ⟨i, hi⟩ := List.mem_iff_getElem?.mp hmem
  obtain ⟨hlen, hall⟩ := convertAll_from (fun o => ∃ k ins out, o = HwOp.unit k ins out 0) ((blk.filterMap fun v =>
    (hwOpOf (opsOf (block V order)) (progOf (block V order)) (fun _ => 0) v).map fun o => (v, o)).map Prod.snd) [] (by simp) (by
      intro o ho
      obtain ⟨p, hp, rfl⟩ := List.mem_map.mp ho
      obtain ⟨u, hu, e⟩ := List.mem_filterMap.mp hp
      have hus := (hblk.2 u).mp hu
      rw [progOf_size] at hus
      obtain ⟨hn, he⟩ := value_is_node hto.nodup hus
      generalize order[u] = n at hn he
      subst he
      have hnl : ∀ s k, (progOf (block V order)).defn (order.idxOf n) ≠ .latency s k := by
        intro s k hd
        rw [progOf_defn _ hn (hc n hn)] at hd
        unfold defOf at hd
        cases ho : (V n).op
        case IN => rw [ho] at hd; by_cases hk : (V n).kind = .stream <;> simp [hk] at hd
        case MUX => rw [ho] at hd; cases he : (V n).srcs <;> simp [he] at hd
        case OFFSET => rw [ho] at hd; simp only at hd; split at hd <;> simp at hd
        all_goals rw [ho] at hd; simp at hd
      unfold hwOpOf at e
      split at e
      · rename_i s k hd; exact absurd hd (hnl s k)
      · split at e
        · rename_i o' _
          cases hk : unitOf o'.kind with
          | none => rw [hk] at e; cases e
          | some k => rw [hk] at e; cases e; exact ⟨_, _, _, rfl⟩
        · cases e
      · cases e)
  obtain ⟨hlt, -⟩ := List.getElem?_eq_some_iff.mp hi
  rw [hlen] at hlt
  obtain ⟨op', ⟨k, ins, out, rfl⟩, h1, -⟩ := hall i _ (List.getElem?_eq_getElem hlt)
  rw [hi] at h1
  cases h1
  simp [createModule, posLatency]

/-- C80 applies to the example kernel: compiled without scheduler option, the circuit with the modules read from the library's text computes `y = 2 x`. -/
theorem ex_library (F : FloatOps) (A : FloatArith) (file : Option Config.JsonDoc) : ∃ cells size ms, Compiled (Dfcxx.after F exCmds) exGraph file cells size ∧
    ModulesOf cells size ms ∧ Bounded cells size ∧ ∃ as, read (libText ms "now".toList) = some as ∧ (as.map Mod.name).Nodup ∧
      LibComputes (Dfcxx.after F exCmds).view exGraph.nodes cells size as := by
  obtain ⟨hh, hf, he⟩ := ex_finished F
  obtain ⟨v0, v4, v5⟩ := ex_views F
  have hof : ∀ n ∈ exGraph.nodes, ((Dfcxx.after F exCmds).view n).op ≠ .OFFSET := by
    intro n hn
    have hn : n ∈ [5, 0, 4] := hn
    simp only [List.mem_cons, List.not_mem_nil, or_false] at hn
    rcases hn with rfl | rfl | rfl <;> simp [v0, v4, v5]
  obtain ⟨order, h1, h2, h3, h4, -⟩ := finished_kernel_is_processable hh hf he
  have hblk : BlockOrder (progOf (block (Dfcxx.after F exCmds).view order)) (List.range (progOf (block (Dfcxx.after F exCmds).view order)).size) :=
    ⟨List.nodup_range, fun v => List.mem_range⟩
  have hC : Compiled (Dfcxx.after F exCmds) exGraph file (circuitOf (opsOf (block (Dfcxx.after F exCmds).view order)) (progOf (block (Dfcxx.after F exCmds).view order))
      (fun _ => 0) (List.range (progOf (block (Dfcxx.after F exCmds).view order)).size)) (progOf (block (Dfcxx.after F exCmds).view order)).size :=
    .comb (A := A) (stages := 0) (perm := id) he h1 (buildBody_exact _ _ h3 h4) (by decide) (fun l => .refl l) (by rw [combPipeline, if_pos rfl]) hblk
  have hM := circuit_modules (opsOf (block (Dfcxx.after F exCmds).view order)) _ (fun _ => 0) hblk
  have hB := comb_bounded h3 h4 hblk
  exact ⟨_, _, _, hC, hM, hB, library_computes hh hf (ex_handled F) hof hC hM hB (by decide)⟩

end Verif.Vlog
