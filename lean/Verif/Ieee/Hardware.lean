import Verif.Ieee.Examples
import Verif.Flow.HwTotal
import Verif.Flow.Compiled
/-
C92: the hardware generated for floating-point kernels.  The type converter turns `dfcir.float<e, f>` into `UInt<1 + e + f>`
(DFCIRToFIRRTLPass.cpp:78-81), and the operations on it become the units of that integer type (lowered like all others, Hw/Lower): they compute on the
patterns as if they were integers.  Only the latency looked up differs (`ADD_FLOAT` instead of `ADD_INT`, DFCIRPassesUtils.cpp:29-57).
-/
namespace Verif.Ieee
open Verif.Dfcxx Verif.Hw Verif.Sched Verif.Flow

set_option maxRecDepth 20000

/-! ### Specification -/

/-- What the standard says of the output of a unit for `op` on doubles, if both operands are finite. -/
def Meets (op : OpType) (x y z : Nat) : Prop :=
  match op with
  | .ADD => binary64.IsSum x y z
  | .SUB => binary64.IsDifference x y z
  | .MUL => binary64.IsProduct x y z
  | .LESS => z = 1 ↔ binary64.Less x y
  | .EQ => z = 1 ↔ binary64.Equal x y
  | _ => True

/-- What the generated units compute instead: integer operations on the patterns. -/
def onPatterns (op : OpType) (x y : Nat) : Nat :=
  match op with
  | .ADD => (x + y) % 2 ^ 64
  | .SUB => (2 ^ 64 + x - y) % 2 ^ 64
  | .MUL => x * y % 2 ^ 64
  | .LESS => if x < y then 1 else 0
  | .EQ => if x = y then 1 else 0
  | _ => 0

/-- The width of the output. -/
def outWidth (op : OpType) : Nat := if op = .LESS ∨ op = .EQ then 1 else 64

def hwOps : List OpType := [.ADD, .SUB, .MUL, .LESS, .EQ]

/-! ### The kernels `z = x op y` on `dfFloat(11, 52)` -/

def dblWorld (op : OpType) : World := after double (floatCmds op 11 52)

theorem dbl_hist (op : OpType) (h : op ∈ hwOps) : ∀ n, n ≤ 5 → Hist double Proper World.init (after double ((floatCmds op 11 52).take n))
  | 0, _ => .nil _
  | n + 1, hl => by
    have hn : n < (floatCmds op 11 52).length := hl
    have he : ∃ rs, (after double ((floatCmds op 11 52).take n)).exec double ((floatCmds op 11 52)[n]'hn) =
        .ok (after double ((floatCmds op 11 52).take (n + 1)), rs) := by
      have : n < 5 := hl
      simp only [hwOps, List.mem_cons, List.not_mem_nil, or_false] at h
      match n, hn with
      | 0, _ | 1, _ | 2, _ | 3, _ | 4, _ => rcases h with rfl | rfl | rfl | rfl | rfl <;> exact ⟨_, rfl⟩
    have hp : Proper (after double ((floatCmds op 11 52).take n)) ((floatCmds op 11 52)[n]'hn) := by
      have : n < 5 := hl
      simp only [hwOps, List.mem_cons, List.not_mem_nil, or_false] at h
      match n, hn with
      | 0, _ | 1, _ | 2, _ => exact proper_simple (Or.inl rfl)
      | 3, _ => rcases h with rfl | rfl | rfl | rfl | rfl <;> exact proper_simple (Or.inl rfl)
      | 4, _ =>
        have key : ∀ W : World, (W.view 2).srcs = [] → (W.view 0).srcs = [] → (W.view 1).srcs = [] → (W.view 3).srcs = [0, 1] → True := fun _ _ _ _ _ => trivial
        rcases h with rfl | rfl | rfl | rfl | rfl <;>
        · refine ⟨⟨trivial, ⟨(fun e => by cases e), fun d => ?_⟩, Or.inl rfl⟩, trivial⟩
          rcases dep_cases d with e | ⟨c, hc, d⟩
          · cases e
          have hc : c ∈ [0, 1] := hc
          simp only [List.mem_cons, List.not_mem_nil, or_false] at hc
          rcases hc with rfl | rfl <;>
          · rcases dep_cases d with e | ⟨c, hc, d⟩
            · cases e
            · have hc : c ∈ [] := hc
              cases hc
    obtain ⟨rs, he⟩ := he
    exact .snoc _ (dbl_hist op h n (by omega)) hp he

theorem dbl_nodes {n : Nat} (hn : n ∈ floatGraph.nodes) : n = 3 ∨ n = 2 ∨ n = 1 ∨ n = 0 := by
  have hn : n ∈ [3, 2, 1, 0] := hn
  simpa using hn

theorem dbl_finished (op : OpType) (h : op ∈ hwOps) : Hist double Proper World.init (dblWorld op) ∧ Finished (dblWorld op) floatGraph ∧
    Enumeration (dblWorld op) floatGraph ((dblWorld op).sortGraph floatGraph) := by
  have hi := dbl_hist op h 5 (Nat.le_refl _)
  have hi : Hist double Proper World.init (dblWorld op) := hi
  refine ⟨hi, ⟨?_, ?_, ?_, ?_⟩, ⟨List.Perm.refl _, List.Perm.refl _, ?_, ?_⟩⟩
  · simp only [hwOps, List.mem_cons, List.not_mem_nil, or_false] at h
    rcases h with rfl | rfl | rfl | rfl | rfl <;> rfl
  · simp only [hwOps, List.mem_cons, List.not_mem_nil, or_false] at h
    rcases h with rfl | rfl | rfl | rfl | rfl <;> rfl
  · intro n hn hop
    simp only [hwOps, List.mem_cons, List.not_mem_nil, or_false] at h
    rcases h with rfl | rfl | rfl | rfl | rfl <;> rcases dbl_nodes hn with rfl | rfl | rfl | rfl <;> first | rfl | cases hop
  · intro n hn hop
    simp only [hwOps, List.mem_cons, List.not_mem_nil, or_false] at h
    rcases h with rfl | rfl | rfl | rfl | rfl <;> rcases dbl_nodes hn with rfl | rfl | rfl | rfl <;> cases hop
  · intro n hn; exact if_pos hn
  · intro n hn; exact if_neg hn

def dbl : DFType := dfFloat 11 52

theorem dbl_views (op : OpType) (h : op ∈ hwOps) :
    (dblWorld op).view 0 = ⟨.IN, .none, dbl, .stream, "x", []⟩ ∧ (dblWorld op).view 1 = ⟨.IN, .none, dbl, .stream, "y", []⟩ ∧
    (dblWorld op).view 3 = ⟨op, .none, streamResultType op dbl, .stream, "", [(0, false), (1, false)]⟩ ∧
    (dblWorld op).view 2 = ⟨.OUT, .none, streamResultType op dbl, .stream, "z", [(3, true)]⟩ := by
  simp only [hwOps, List.mem_cons, List.not_mem_nil, or_false] at h
  rcases h with rfl | rfl | rfl | rfl | rfl <;> exact ⟨rfl, rfl, rfl, rfl⟩

theorem dbl_width (op : OpType) (h : op ∈ hwOps) : width (streamResultType op dbl) = outWidth op ∧ unsignedTy (streamResultType op dbl) ∧
    SizeOK (streamResultType op dbl) := by
  simp only [hwOps, List.mem_cons, List.not_mem_nil, or_false] at h
  rcases h with rfl | rfl | rfl | rfl | rfl <;> refine ⟨rfl, rfl, by decide, by decide, ?_⟩ <;> intro e f he <;> cases he <;> decide

theorem dbl_size : SizeOK dbl := by
  refine ⟨by decide, by decide, ?_⟩
  intro e f he
  cases he
  decide

/-- Hardware is produced. -/
theorem dbl_handled (op : OpType) (h : op ∈ hwOps) (L : Nat → Nat) : HwHandled (dblWorld op).view L floatGraph.nodes := by
  obtain ⟨v0, v1, v3, v2⟩ := dbl_views op h
  obtain ⟨-, hu, hsz⟩ := dbl_width op h
  refine ⟨?_, ?_, ?_, ?_⟩
  · intro n hn
    rcases dbl_nodes hn with rfl | rfl | rfl | rfl
    · refine ⟨by rw [v3]; exact hsz, ?_⟩
      rw [v3]
      simp only [hwOps, List.mem_cons, List.not_mem_nil, or_false] at h
      rcases h with rfl | rfl | rfl | rfl | rfl
      · exact .inr rfl
      · exact .inr rfl
      · exact .inr rfl
      · exact rfl
      · exact rfl
    · refine ⟨by rw [v2]; exact hsz, ?_⟩
      rw [v2]; simp [NodeV.srcs, v3, SameHw]
    · refine ⟨by rw [v1]; exact dbl_size, ?_⟩
      rw [v1]; trivial
    · refine ⟨by rw [v0]; exact dbl_size, ?_⟩
      rw [v0]; trivial
  · intro n hn k hk
    rcases dbl_nodes hn with rfl | rfl | rfl | rfl
    · rw [v3] at hk; cases hk
    · rw [v2] at hk; cases hk
    · rw [v1] at hk; cases hk
    · rw [v0] at hk; cases hk
  · intro n hn
    rcases dbl_nodes hn with rfl | rfl | rfl | rfl
    · rw [v3]; simp [NodeV.srcs]
    · rw [v2]; simp [NodeV.srcs]
    · rw [v1]; simp [NodeV.srcs]
    · rw [v0]; simp [NodeV.srcs]
  · intro n hn s hs
    rcases dbl_nodes hn with rfl | rfl | rfl | rfl
    · rw [v3] at hs; simp [NodeV.srcs] at hs; rcases hs with rfl | rfl
      · rw [v0]; simp
      · rw [v1]; simp
    · rw [v2] at hs; simp [NodeV.srcs] at hs; subst hs; rw [v3]
      simp only [hwOps, List.mem_cons, List.not_mem_nil, or_false] at h
      rcases h with rfl | rfl | rfl | rfl | rfl <;> simp
    · rw [v1] at hs; simp [NodeV.srcs] at hs
    · rw [v0] at hs; simp [NodeV.srcs] at hs

theorem dbl_signs (op : OpType) (h : op ∈ hwOps) : SignsByWidth (dblWorld op).view floatGraph.nodes := by
  obtain ⟨v0, v1, v3, v2⟩ := dbl_views op h
  obtain ⟨-, hu, -⟩ := dbl_width op h
  have hs : ∀ n ∈ floatGraph.nodes, ((dblWorld op).view n).ty.isSigned = false := by
    intro n hn
    rcases dbl_nodes hn with rfl | rfl | rfl | rfl
    · rw [v3]; exact hu
    · rw [v2]; exact hu
    · rw [v1]; rfl
    · rw [v0]; rfl
  intro m hm n hn
  simp [hs m hm, hs n hn]

/-- The stream of the output. -/
theorem dbl_stream (op : OpType) (h : op ∈ hwOps) (port : String → Nat → Nat) (hp : ∀ s t, port s t < 2 ^ 64) (t : Nat) :
    HwVal (dblWorld op).view port 2 t (onPatterns op (port "x" t) (port "y" t)) := by
  obtain ⟨v0, v1, v3, v2⟩ := dbl_views op h
  have h0 := HwVal.input (V := (dblWorld op).view) (inp := port) (n := 0) (k := t) (by rw [v0]) (by rw [v0])
  have h1 := HwVal.input (V := (dblWorld op).view) (inp := port) (n := 1) (k := t) (by rw [v1]) (by rw [v1])
  rw [v0] at h0
  rw [v1] at h1
  refine .out (by rw [v2]) (s := 3) (by rw [v2]; rfl) ?_
  refine .op (fun s => if s = 0 then port "x" t else port "y" t) (by omega) ?_ ?_
  · intro s hs
    rw [v3] at hs
    simp [NodeV.srcs] at hs
    rcases hs with rfl | rfl
    · exact h0
    · exact h1
  · rw [v3]
    have hx := hp "x" t
    have hy := hp "y" t
    generalize port "x" t = x at hx ⊢
    generalize port "y" t = y at hy ⊢
    have e : width dbl = 64 := rfl
    have es : dbl.isSigned = false := rfl
    have hu : ∀ w n, numAs false w n = n := fun w n => by simp [numAs]
    have ea : streamResultType .ADD dbl = dbl := rfl
    have eb : streamResultType .SUB dbl = dbl := rfl
    have ec : streamResultType .MUL dbl = dbl := rfl
    simp only [hwOps, List.mem_cons, List.not_mem_nil, or_false] at h
    rcases h with rfl | rfl | rfl | rfl | rfl <;>
      simp only [NodeV.srcs, List.map_cons, List.map_nil, v0, v1, hwMeaning, hwArith, hwComp, onPatterns, ea, eb, ec, es, e, hu, pattern, Nat.max_self, Bool.and_false, if_true,
        show (1 : Nat) = 0 ↔ False by decide, if_false] <;> congr 1
    · omega
    · omega
    · have : ((x : Int) * y) = ((x * y : Nat) : Int) := by push_cast; rfl
      rw [this]
      generalize x * y = q
      omega
    · by_cases hxy : x < y <;> simp [truth, hxy]
    · by_cases hxy : x = y <;> simp [truth, hxy]

/-- **C92 (what floating-point units compute).**  For each of `+ - * < ==` there are designs for the kernel `z = x op y` on doubles, and in every
design any of the scheduling passes may produce, with any latencies, the output shows the integer operation on the patterns of the operands. -/
theorem double_hardware (op : OpType) (h : op ∈ hwOps) (file : Option Config.JsonDoc) :
    (∃ cells size, Compiled (dblWorld op) floatGraph file cells size) ∧
    ∀ cells size, Compiled (dblWorld op) floatGraph file cells size → ∃ wire delay, ∀ port : String → Nat → Nat, (∀ s t, port s t < 2 ^ 64) →
      ∀ oob reg, OobOK oob → ∀ σ, CircuitRun cells size port oob reg σ → ∀ t : Nat,
        σ wire (delay + t) = ⟨false, outWidth op, onPatterns op (port "x" t) (port "y" t)⟩ := by
  obtain ⟨hh, hf, he⟩ := dbl_finished op h
  obtain ⟨v0, v1, v3, v2⟩ := dbl_views op h
  obtain ⟨hw, hu, -⟩ := dbl_width op h
  refine ⟨?_, fun cells size hc => ?_⟩
  · obtain ⟨order, prog, h1, h2, h3⟩ := asap_compile_hw hh hf he file (dbl_handled op h _)
    obtain ⟨X, h4, -⟩ := h3 _ (List.Perm.refl _)
    exact ⟨_, _, .asap he h1 h2 (List.Perm.refl _) h4 (blk := List.range X.size) ⟨List.nodup_range, fun v => List.mem_range⟩⟩
  · have hno : op ≠ .OFFSET := by rintro rfl; simp [hwOps] at h
    have hni : op ≠ .IN := by rintro rfl; simp [hwOps] at h
    obtain ⟨wire, delay, -, hr⟩ := compiled_hw hh hf (dbl_handled op h) (fun n hn => by
      rcases dbl_nodes hn with rfl | rfl | rfl | rfl <;> simp [v0, v1, v2, v3, hno]) (dbl_signs op h) hc
    refine ⟨wire 2, delay 2, fun port hp oob reg ho σ hs t => ?_⟩
    have hpo : PortsOK (dblWorld op).view floatGraph.nodes port := by
      refine ⟨fun n hn ho t => ?_, fun n hn ho hk t => ?_⟩
      · rcases dbl_nodes hn with rfl | rfl | rfl | rfl
        · rw [v3] at ho; exact absurd ho hni
        · rw [v2] at ho; cases ho
        · rw [v1]; exact hp _ _
        · rw [v0]; exact hp _ _
      · exfalso
        rcases dbl_nodes hn with rfl | rfl | rfl | rfl
        · rw [v3] at hk; exact hk rfl
        · rw [v2] at hk; exact hk rfl
        · rw [v1] at hk; exact hk rfl
        · rw [v0] at hk; exact hk rfl
    have := (hr _ oob reg hpo ho).2 σ hs 2 (by decide) (by rw [v2]) t _ (dbl_stream op h port hp t)
    rw [this, v2]
    show (⟨(streamResultType op dbl).isSigned, width (streamResultType op dbl), _⟩ : FVal) = _
    rw [hw, hu]

/-- **C92 (comparisons).**  Of finite numbers without a sign the hardware compares the values. -/
theorem double_hardware_partial (op : OpType) (h : op ∈ [.LESS, .EQ]) (file : Option Config.JsonDoc) :
    (∃ cells size, Compiled (dblWorld op) floatGraph file cells size) ∧
    ∀ cells size, Compiled (dblWorld op) floatGraph file cells size → ∃ wire delay, ∀ port : String → Nat → Nat, (∀ s t, port s t < 2 ^ 64) →
      ∀ oob reg, OobOK oob → ∀ σ, CircuitRun cells size port oob reg σ → ∀ t : Nat,
        binary64.IsFinite (port "x" t) → binary64.neg (port "x" t) = false → binary64.IsFinite (port "y" t) → binary64.neg (port "y" t) = false →
        Meets op (port "x" t) (port "y" t) (σ wire (delay + t)).n := by
  simp only [List.mem_cons, List.not_mem_nil, or_false] at h
  have h' : op ∈ hwOps := by rcases h with rfl | rfl <;> decide
  obtain ⟨he, hr⟩ := double_hardware op h' file
  refine ⟨he, fun cells size hc => ?_⟩
  obtain ⟨wire, delay, hr⟩ := hr cells size hc
  refine ⟨wire, delay, fun port hp oob reg ho σ hs t fx nx fy ny => ?_⟩
  rw [hr port hp oob reg ho σ hs t]
  have hx := hp "x" t
  have hy := hp "y" t
  generalize port "x" t = x at fx nx hx ⊢
  generalize port "y" t = y at fy ny hy ⊢
  have ex : (BitVec.ofNat 64 x).toNat = x := by rw [BitVec.toNat_ofNat]; exact Nat.mod_eq_of_lt hx
  have ey : (BitVec.ofNat 64 y).toNat = y := by rw [BitVec.toNat_ofNat]; exact Nat.mod_eq_of_lt hy
  have hl := less_bits (x := BitVec.ofNat 64 x) (y := BitVec.ofNat 64 y) (by rw [ex]; exact nx) (by rw [ey]; exact ny) (by rw [ex]; exact fx) (by rw [ey]; exact fy)
  have hq := equal_bits (x := BitVec.ofNat 64 x) (y := BitVec.ofNat 64 y) (by rw [ex]; exact nx) (by rw [ey]; exact ny) (by rw [ex]; exact fx) (by rw [ey]; exact fy)
  rw [ex, ey] at hl hq
  rcases h with rfl | rfl <;> simp only [Meets, onPatterns]
  · rw [hl]; split <;> simp_all
  · rw [hq, ← BitVec.toNat_inj, ex, ey]; split <;> simp_all

/-- Operands for which the output is wrong: 1 + 1, 2 - 1, 1 * 1, -1 < 1, 0 == -0. -/
def wrongFor : OpType → Nat × Nat
  | .SUB => (0x4000000000000000, 0x3FF0000000000000)
  | .LESS => (0xBFF0000000000000, 0x3FF0000000000000)
  | .EQ => (0, 0x8000000000000000)
  | _ => (0x3FF0000000000000, 0x3FF0000000000000)

theorem wrong_values : binary64.value 0x3FF0000000000000 = 1 ∧ binary64.value 0x4000000000000000 = 2 := by decide +kernel

theorem patterns_wrong (op : OpType) (h : op ∈ hwOps) : ¬ Meets op (wrongFor op).1 (wrongFor op).2 (onPatterns op (wrongFor op).1 (wrongFor op).2) := by
  obtain ⟨e1, e2⟩ := wrong_values
  have f1 : binary64.IsFinite 0x3FF0000000000000 := by unfold Fmt.IsFinite; decide
  have f2 : binary64.IsFinite 0x4000000000000000 := by unfold Fmt.IsFinite; decide
  simp only [hwOps, List.mem_cons, List.not_mem_nil, or_false] at h
  rcases h with rfl | rfl | rfl | rfl | rfl <;> simp only [Meets, wrongFor, onPatterns]
  · intro h
    have h3 := h.numbers f1 f1
    rw [e1] at h3
    have := binary64.is_unique (by decide) h3
    revert this
    decide +kernel
  · rintro ⟨c, ⟨o1, o2, o3⟩, h⟩
    have fc : binary64.IsFinite c := by unfold Fmt.IsFinite at f1 ⊢; rw [o2]; exact f1
    have ec : binary64.value c = -1 := by
      have e : binary64.value c = -binary64.value 0x3FF0000000000000 := by
        have n1 : binary64.neg 0x3FF0000000000000 = false := by decide
        unfold Fmt.value
        rw [o1, o2, o3, n1]
        simp
        split <;> rfl
      rw [e, e1]
    have h3 := h.numbers f2 fc
    rw [e2, ec, o1, show binary64.neg 0x4000000000000000 = false by decide, Bool.false_and] at h3
    have := binary64.is_unique (by decide) h3
    revert this
    decide +kernel
  · intro h
    have h3 := h.numbers f1 f1
    rw [e1] at h3
    have := binary64.is_unique (by decide) h3
    revert this
    decide +kernel
  · intro h
    have : binary64.Less 0xBFF0000000000000 0x3FF0000000000000 := (binary64.lt_iff _ _).1 (by decide +kernel)
    have := h.2 this
    revert this
    decide
  · intro h
    have : binary64.Equal 0 0x8000000000000000 := (binary64.eq_iff _ _).1 (by decide +kernel)
    have := h.2 this
    revert this
    decide

/-- **C92 is false of the program**: for each of `+ - * < ==` there are finite operands (1 + 1, 2 - 1, 1 * 1, -1 < 1, 0 == -0) for which, in every
design any of the passes may produce, the output at no time is what IEEE 754 says. -/
theorem hardware_floats_wrong (op : OpType) (h : op ∈ hwOps) (file : Option Config.JsonDoc) :
    binary64.IsFinite (wrongFor op).1 ∧ binary64.IsFinite (wrongFor op).2 ∧
    (∃ cells size, Compiled (dblWorld op) floatGraph file cells size) ∧
    ∀ cells size, Compiled (dblWorld op) floatGraph file cells size → ∃ wire delay, ∀ oob reg, OobOK oob →
      ∀ σ, CircuitRun cells size (fun s _ => if s = "x" then (wrongFor op).1 else (wrongFor op).2) oob reg σ → ∀ t : Nat,
        ¬ Meets op (wrongFor op).1 (wrongFor op).2 (σ wire (delay + t)).n := by
  obtain ⟨he, hr⟩ := double_hardware op h file
  have hf : binary64.IsFinite (wrongFor op).1 ∧ binary64.IsFinite (wrongFor op).2 ∧ (wrongFor op).1 < 2 ^ 64 ∧ (wrongFor op).2 < 2 ^ 64 := by
    simp only [hwOps, List.mem_cons, List.not_mem_nil, or_false] at h
    unfold Fmt.IsFinite
    rcases h with rfl | rfl | rfl | rfl | rfl <;> decide
  refine ⟨hf.1, hf.2.1, he, fun cells size hc => ?_⟩
  obtain ⟨wire, delay, hr⟩ := hr cells size hc
  refine ⟨wire, delay, fun oob reg ho σ hs t => ?_⟩
  rw [hr _ (fun s t => by by_cases hsx : s = "x" <;> simp only [hsx, if_true, if_false] <;> [exact hf.2.2.1; exact hf.2.2.2]) oob reg ho σ hs t]
  exact patterns_wrong op h

/-- `onPatterns` for formats of `w` bits. -/
def onPatternsOf (op : OpType) (w x y : Nat) : Nat :=
  match op with
  | .ADD => (x + y) % 2 ^ w
  | .SUB => (2 ^ w + x - y) % 2 ^ w
  | .MUL => x * y % 2 ^ w
  | .LESS => if x < y then 1 else 0
  | .EQ => if x = y then 1 else 0
  | _ => 0

/-- **C92 (all kernels, all formats).**  In the circuit of any kernel the stream of an operator on streams of type `dfFloat(e, m)` is the integer
operation on their patterns (`compiled_hw` says that the wires of every design carry the streams `HwVal`). -/
theorem float_units {V : Nat → NodeV} {inp : String → Nat → Nat} {n a b e m x y : Nat} {t : Int} (ho : (V n).op ∈ hwOps) (hs : (V n).srcs = [a, b])
    (ht : (V n).ty = streamResultType (V n).op (.float e m)) (hta : (V a).ty = .float e m) (htb : (V b).ty = .float e m) (h0 : 0 ≤ t)
    (ha : HwVal V inp a t x) (hb : HwVal V inp b t y) (hy : y < 2 ^ (1 + e + m)) {z : Nat} (hz : HwVal V inp n t z) :
    z = onPatternsOf (V n).op (1 + e + m) x y := by
  have key : HwVal V inp n t (onPatternsOf (V n).op (1 + e + m) x y) := by
    refine .op (fun s => if s = a then x else y) h0 ?_ ?_
    · intro s hm
      rw [hs] at hm
      simp only [List.mem_cons, List.not_mem_nil, or_false] at hm
      by_cases e : s = a
      · subst e; simp only [if_true]; exact ha
      · simp only [e, if_false]
        rcases hm with h | h
        · exact absurd h e
        · subst h; exact hb
    · have hyx : (if b = a then x else y) = y := by
        split
        · rename_i e; subst e; exact hwVal_unique ha hb
        · rfl
      have hu : ∀ w n, numAs false w n = n := fun w n => by simp [numAs]
      rw [hs]
      simp only [hwOps, List.mem_cons, List.not_mem_nil, or_false] at ho
      have es : (DFType.float e m).isSigned = false := rfl
      have ew : width (DFType.float e m) = 1 + e + m := rfl
      rcases ho with ho | ho | ho | ho | ho <;> rw [ho] at ht ⊢ <;>
        simp only [List.map_cons, List.map_nil, hwMeaning, hwArith, hwComp, onPatternsOf, hta, htb, ht, streamResultType, OpType.isComparison, es, ew, hu,
          hyx, pattern, Nat.max_self, Bool.and_false, Bool.false_eq_true, if_true, if_false] <;> congr 1
      · have hp : (2 : Int) ^ (1 + e + m) = ((2 ^ (1 + e + m) : Nat) : Int) := by push_cast; rfl
        rw [hp]
        generalize 2 ^ (1 + e + m) = q at hy ⊢
        rw [show ((x : Int) + y) = ((x + y : Nat) : Int) by push_cast; rfl, ← Int.natCast_mod, Int.toNat_natCast, ← Int.natCast_mod,
          Int.toNat_natCast, Nat.mod_mod]
      · have hp : (2 : Int) ^ (1 + e + m) = ((2 ^ (1 + e + m) : Nat) : Int) := by push_cast; rfl
        rw [hp]
        generalize 2 ^ (1 + e + m) = q at hy ⊢
        rw [show ((x : Int) - y) = ((q + x - y : Nat) : Int) - q by omega, Int.sub_emod_right, ← Int.natCast_mod, Int.toNat_natCast, ← Int.natCast_mod,
          Int.toNat_natCast, Nat.mod_mod]
      · have hp : (2 : Int) ^ (1 + e + m) = ((2 ^ (1 + e + m) : Nat) : Int) := by push_cast; rfl
        rw [hp]
        generalize 2 ^ (1 + e + m) = q at hy ⊢
        rw [show ((x : Int) * y) = ((x * y : Nat) : Int) by push_cast; rfl, ← Int.natCast_mod, Int.toNat_natCast, ← Int.natCast_mod,
          Int.toNat_natCast, Nat.mod_mod]
      · by_cases hxy : x < y <;> simp [truth, hxy]
      · by_cases hxy : x = y <;> simp [truth, hxy]
  exact hwVal_unique hz key

/-- For doubles this is `onPatterns`. -/
theorem onPatterns_double (op : OpType) (x y : Nat) : onPatternsOf op 64 x y = onPatterns op x y := by
  cases op <;> rfl

/-- The hypotheses are met: the kernels `z = x op y`. -/
example (op : OpType) (h : op ∈ hwOps) (port : String → Nat → Nat) (hp : ∀ s t, port s t < 2 ^ 64) (t z : Nat)
    (hz : HwVal (dblWorld op).view port 3 t z) : z = onPatterns op (port "x" t) (port "y" t) := by
  obtain ⟨v0, v1, v3, v2⟩ := dbl_views op h
  have h0 := HwVal.input (V := (dblWorld op).view) (inp := port) (n := 0) (k := t) (by rw [v0]) (by rw [v0])
  have h1 := HwVal.input (V := (dblWorld op).view) (inp := port) (n := 1) (k := t) (by rw [v1]) (by rw [v1])
  rw [v0] at h0
  rw [v1] at h1
  have := float_units (V := (dblWorld op).view) (n := 3) (a := 0) (b := 1) (e := 11) (m := 52) (by rw [v3]; exact h) (by rw [v3]; rfl) (by rw [v3]; rfl)
    (by rw [v0]; rfl) (by rw [v1]; rfl) (by omega) h0 h1 (hp _ _) hz
  rw [this, v3]
  exact onPatterns_double op _ _

end Verif.Ieee
