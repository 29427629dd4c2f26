import Verif.Ieee.Fold
import Verif.Ieee.Strtod
import Verif.Dfcxx.WorldExamples
/-
Concrete cases and counterexamples for C91.
-/
namespace Verif.Ieee
open Verif.Dfcxx Verif.Json Verif.Config

set_option maxRecDepth 20000

/-- 0.1 + 0.2 is not 0.3, but the next number. -/
theorem tenths : double.add 0x3FB999999999999A#64 0x3FC999999999999A#64 = 0x3FD3333333333334#64 := by decide +kernel
/-- 1 / 3; 3 * (1 / 3) is 1 again; 1 - 1 is 0, -1 + -0 is -1, 1 / 0 infinity, 0 / 0 not a number; the largest number doubled is infinity; half the smallest
one is 0. -/
theorem thirds : double.div 0x3FF0000000000000#64 0x4008000000000000#64 = 0x3FD5555555555555#64 ∧
    double.mul 0x4008000000000000#64 0x3FD5555555555555#64 = 0x3FF0000000000000#64 ∧
    double.sub 0x3FF0000000000000#64 0x3FF0000000000000#64 = 0 ∧
    double.add 0xBFF0000000000000#64 0x8000000000000000#64 = 0xBFF0000000000000#64 ∧
    double.div 0x3FF0000000000000#64 0 = 0x7FF0000000000000#64 ∧ double.div 0 0 = 0x7FF8000000000000#64 ∧
    double.add 0x7FEFFFFFFFFFFFFF#64 0x7FEFFFFFFFFFFFFF#64 = 0x7FF0000000000000#64 ∧
    double.div 1 0x4000000000000000#64 = 0 ∧ double.neg 0 = 0x8000000000000000#64 := by decide +kernel

/-- `z = x op y`, with `x` and `y` of type `dfFloat(e, m)`. -/
def floatCmds (op : OpType) (e m : Nat) : List Cmd :=
  [.input false "x" (dfFloat e m), .input false "y" (dfFloat e m), .output false "z" (streamResultType op (dfFloat e m)), .bin op 0 1, .connect 2 3]

/-- The graph the calls build. -/
def floatView (op : OpType) (e m : Nat) : Nat → NodeV := (after double (floatCmds op e m)).view

theorem floatView_nodes (op : OpType) (h : op ∈ [.ADD, .DIV, .LESS, .EQ]) (e m : Nat) (hem : (e, m) ∈ [(11, 52), (8, 23)]) :
    floatView op e m 0 = ⟨.IN, .none, dfFloat e m, .stream, "x", []⟩ ∧ floatView op e m 1 = ⟨.IN, .none, dfFloat e m, .stream, "y", []⟩ ∧
    floatView op e m 3 = ⟨op, .none, streamResultType op (dfFloat e m), .stream, "", [(0, false), (1, false)]⟩ ∧
    floatView op e m 2 = ⟨.OUT, .none, streamResultType op (dfFloat e m), .stream, "z", [(3, true)]⟩ := by
  simp only [List.mem_cons, List.not_mem_nil, or_false] at h
  simp only [List.mem_cons, List.not_mem_nil, or_false, Prod.mk.injEq] at hem
  rcases h with rfl | rfl | rfl | rfl <;> rcases hem with ⟨rfl, rfl⟩ | ⟨rfl, rfl⟩ <;> exact ⟨rfl, rfl, rfl, rfl⟩

/-- The steps of a simulation with these values of `x` and `y`. -/
def feed (vs : List (Word × Word)) : List TickIn :=
  vs.map fun v s => if s = "x" then .ok v.1 else if s = "y" then .ok v.2 else .error .throw

def floatOrder : List Nat := [0, 1, 3, 2]

theorem floatOrder_topo (op : OpType) (h : op ∈ [.ADD, .DIV, .LESS, .EQ]) (e m : Nat) (hem : (e, m) ∈ [(11, 52), (8, 23)]) : TopoOrder (floatView op e m) floatOrder where
  nodup := by decide
  before := by
    obtain ⟨v0, v1, v3, v2⟩ := floatView_nodes op h e m hem
    intro n hn s hs
    simp only [floatOrder, List.mem_cons, List.not_mem_nil, or_false] at hn
    rcases hn with rfl | rfl | rfl | rfl <;> simp only [v0, v1, v2, v3, NodeV.srcs, List.map_cons, List.map_nil, List.mem_cons, List.not_mem_nil, or_false] at hs
    · rcases hs with rfl | rfl
      · exact ⟨[], [1], [2], rfl⟩
      · exact ⟨[0], [], [2], rfl⟩
    · subst hs; exact ⟨[0, 1], [], [], rfl⟩

theorem floatShape (op : OpType) (h : op ∈ [.ADD, .DIV, .LESS, .EQ]) (e m : Nat) (hem : (e, m) ∈ [(11, 52), (8, 23)]) : ∀ n ∈ floatOrder, (floatView op e m n).Shape := by
  obtain ⟨v0, v1, v3, v2⟩ := floatView_nodes op h e m hem
  intro n hn
  simp only [floatOrder, List.mem_cons, List.not_mem_nil, or_false] at hn
  simp only [List.mem_cons, List.not_mem_nil, or_false] at h
  rcases hn with rfl | rfl | rfl | rfl
  · rw [v0]; constructor <;> simp [OpType.isComparison]
  · rw [v1]; constructor <;> simp [OpType.isComparison]
  · rw [v3]; rcases h with rfl | rfl | rfl | rfl <;> constructor <;> simp [OpType.isComparison, streamResultType]
  · rw [v2]; constructor <;> simp [OpType.isComparison]

theorem floatNoWrap (op : OpType) (h : op ∈ [.ADD, .DIV, .LESS, .EQ]) (e m : Nat) (hem : (e, m) ∈ [(11, 52), (8, 23)]) (inp : TickIn) : NoWrap double (floatView op e m) inp floatOrder := by
  obtain ⟨v0, v1, v3, v2⟩ := floatView_nodes op h e m hem
  intro n hn hop
  simp only [floatOrder, List.mem_cons, List.not_mem_nil, or_false] at hn
  simp only [List.mem_cons, List.not_mem_nil, or_false] at h
  exfalso
  rcases hn with rfl | rfl | rfl | rfl
  · rw [v0] at hop; cases hop
  · rw [v1] at hop; cases hop
  · rw [v3] at hop; rcases h with rfl | rfl | rfl | rfl <;> cases hop
  · rw [v2] at hop; cases hop

/-- 0.1 and 0.2, then twice the largest number. -/
def tenthsFeed : List TickIn := feed [(0x3FB999999999999A#64, 0x3FC999999999999A#64), (0x7FEFFFFFFFFFFFFF#64, 0x7FEFFFFFFFFFFFFF#64)]

theorem tenthsRun : ∃ out, runTicks double (floatView .ADD 11 52) floatOrder (fun _ => none) tenthsFeed = .ok (some out) := ⟨_, rfl⟩

/-- The hypotheses of `double_nodes_partial` are met: a kernel of the API, two steps. -/
example : ∃ out, runTicks double (floatView .ADD 11 52) floatOrder (fun _ => none) tenthsFeed = .ok (some out) ∧
    ∀ (t : Nat) (tbl : Vals), out[t]? = some tbl → ∃ x y v, tbl 0 = some x ∧ tbl 1 = some y ∧ tbl 3 = some v ∧ Computes .ADD x y v := by
  obtain ⟨out, hr⟩ := tenthsRun
  refine ⟨out, hr, fun t tbl h => ?_⟩
  obtain ⟨v0, v1, v3, v2⟩ := floatView_nodes .ADD (by decide) 11 52 (by decide)
  have := double_nodes_partial _ _ (floatOrder_topo .ADD (by decide) 11 52 (by decide)) (floatShape .ADD (by decide) 11 52 (by decide)) _
    (fun inp _ => floatNoWrap .ADD (by decide) 11 52 (by decide) inp) _ _ hr t tbl h (n := 3) (a := 0) (b := 1) (rest := []) (by decide) (e := 11) (m := 52)
    (by rw [v3]; rfl) (by rw [v3]; rfl)
  rw [v3] at this
  exact this

/-- Every call of the kernel keeps to the rules of the API. -/
theorem float_proper (n : Nat) (h : n < (floatCmds .ADD 11 52).length) :
    Proper (after double ((floatCmds .ADD 11 52).take n)) ((floatCmds .ADD 11 52)[n]'h) := by
  have : n < 5 := h
  match n, h with
  | 0, _ | 1, _ | 2, _ | 3, _ => exact proper_simple (Or.inl rfl)
  | 4, _ =>
    refine ⟨⟨trivial, ⟨(fun e => by cases e), fun d => ?_⟩, Or.inl rfl⟩, trivial⟩
    rcases dep_cases d with e | ⟨c, hc, d⟩
    · cases e
    have hc : c ∈ [0, 1] := hc
    simp only [List.mem_cons, List.not_mem_nil, or_false] at hc
    rcases hc with rfl | rfl
    · have d : (after double ((floatCmds .ADD 11 52).take 4)).Dep 2 0 := d
      rcases dep_cases d with e | ⟨c, hc, d⟩
      · cases e
      · cases hc
    · have d : (after double ((floatCmds .ADD 11 52).take 4)).Dep 2 1 := d
      rcases dep_cases d with e | ⟨c, hc, d⟩
      · cases e
      · cases hc

theorem float_hist : ∀ n, n ≤ 5 → Hist double Proper World.init (after double ((floatCmds .ADD 11 52).take n))
  | 0, _ => .nil _
  | n + 1, h => by
    have hn : n < (floatCmds .ADD 11 52).length := h
    have : ∃ rs, (after double ((floatCmds .ADD 11 52).take n)).exec double ((floatCmds .ADD 11 52)[n]'hn) =
        .ok (after double ((floatCmds .ADD 11 52).take (n + 1)), rs) := by
      have : n < 5 := h
      match n, hn with
      | 0, _ | 1, _ | 2, _ | 3, _ | 4, _ => exact ⟨_, rfl⟩
    obtain ⟨rs, he⟩ := this
    exact .snoc _ (float_hist n (by omega)) (float_proper n hn) he

def floatGraph : KGraph := ⟨0, [3, 2, 1, 0], [1, 0], [("z", 2), ("y", 1), ("x", 0)]⟩

/-- The hypotheses of `kernel_doubles_partial` are met. -/
theorem float_finished : Hist double Proper World.init (after double (floatCmds .ADD 11 52)) ∧ Finished (after double (floatCmds .ADD 11 52)) floatGraph ∧
    Enumeration (after double (floatCmds .ADD 11 52)) floatGraph ((after double (floatCmds .ADD 11 52)).sortGraph floatGraph) := by
  refine ⟨float_hist 5 (Nat.le_refl _), ⟨rfl, rfl, ?_, ?_⟩, ⟨List.Perm.refl _, List.Perm.refl _, ?_, ?_⟩⟩
  · intro n hn hop
    have hn : n ∈ [3, 2, 1, 0] := hn
    simp only [List.mem_cons, List.not_mem_nil, or_false] at hn
    rcases hn with rfl | rfl | rfl | rfl <;> first | rfl | cases hop
  · intro n hn hop
    have hn : n ∈ [3, 2, 1, 0] := hn
    simp only [List.mem_cons, List.not_mem_nil, or_false] at hn
    rcases hn with rfl | rfl | rfl | rfl <;> cases hop
  · intro n hn; exact if_pos hn
  · intro n hn; exact if_neg hn

/-- 1 < 2, as the standard says. -/
example : ∃ out tbl, runTicks double (floatView .LESS 11 52) floatOrder (fun _ => none) (feed [(0x3FF0000000000000#64, 0x4000000000000000#64)]) = .ok (some out) ∧
    out[0]? = some tbl ∧ tbl 3 = some 1 ∧ binary64.Less 0x3FF0000000000000 0x4000000000000000 :=
  ⟨_, _, rfl, rfl, rfl, (binary64.lt_iff _ _).1 (by decide +kernel)⟩

/-- Comparisons of negative numbers are wrong: -1 < 1 is false in the simulation. -/
theorem comparison_of_negative_wrong : ∃ out tbl,
    runTicks double (floatView .LESS 11 52) floatOrder (fun _ => none) (feed [(0xBFF0000000000000#64, 0x3FF0000000000000#64)]) = .ok (some out) ∧
    out[0]? = some tbl ∧ tbl 0 = some 0xBFF0000000000000#64 ∧ tbl 1 = some 0x3FF0000000000000#64 ∧ tbl 3 = some 0 ∧
    binary64.Less 0xBFF0000000000000 0x3FF0000000000000 :=
  ⟨_, _, rfl, rfl, rfl, rfl, rfl, (binary64.lt_iff _ _).1 (by decide +kernel)⟩

/-- Not a number equals itself in the simulation, and 0 does not equal -0. -/
theorem equality_wrong : ∃ out t0 t1,
    runTicks double (floatView .EQ 11 52) floatOrder (fun _ => none) (feed [(0x7FF8000000000000#64, 0x7FF8000000000000#64), (0, 0x8000000000000000#64)]) =
      .ok (some out) ∧ out[0]? = some t0 ∧ out[1]? = some t1 ∧ t0 3 = some 1 ∧ t1 3 = some 0 ∧
    ¬ binary64.Equal 0x7FF8000000000000 0x7FF8000000000000 ∧ binary64.Equal 0 0x8000000000000000 :=
  ⟨_, _, _, rfl, rfl, rfl, rfl, rfl, fun h => absurd ((binary64.eq_iff _ _).2 h) (by decide +kernel), (binary64.eq_iff _ _).1 (by decide +kernel)⟩

theorem one_plus_one : double.add 0x3F800000#64 0x3F800000#64 = 0x7F000000#64 := by decide +kernel

/-- Other formats are not simulated: a kernel of `dfFloat(8, 23)` (binary32), given 1 and 1, gives 1.7e38, not 2. -/
theorem binary32_wrong : ∃ out tbl,
    runTicks double (floatView .ADD 8 23) floatOrder (fun _ => none) (feed [(0x3F800000#64, 0x3F800000#64)]) = .ok (some out) ∧
    out[0]? = some tbl ∧ tbl 0 = some 0x3F800000#64 ∧ tbl 1 = some 0x3F800000#64 ∧ tbl 3 = some 0x7F000000#64 ∧
    ¬ binary32.IsSum 0x3F800000 0x3F800000 0x7F000000 := by
  refine ⟨_, _, rfl, rfl, rfl, rfl, congrArg some one_plus_one, fun h => ?_⟩
  have h1 : binary32.IsFinite 0x3F800000 := by unfold Fmt.IsFinite; decide
  have h2 : binary32.value 0x3F800000 = 1 := by decide +kernel
  have h3 := h.numbers h1 h1
  rw [h2] at h3
  have := binary32.is_unique (by decide) h3
  revert this
  decide +kernel

/-- The documented types: their bits are those of the formats. -/
example : (dfFloat 11 52).totalBits = 64 ∧ (dfFloat 8 23).totalBits = 32 := ⟨rfl, rfl⟩

/-- 0.1 + 0.2 as constants. -/
def tenthsCmds : List Cmd := [.const (dfFloat 11 52) 0x3FB999999999999A#64, .const (dfFloat 11 52) 0x3FC999999999999A#64]

/-- The hypotheses of `fold_floats` are met: 0.1 + 0.2. -/
theorem tenths_fold : ∃ w w1 : World, World.init.run double tenthsCmds = .ok w ∧ Hist double Clean World.init w ∧
    w.IsConst 0 (dfFloat 11 52) 0x3FB999999999999A#64 ∧ w.IsConst 1 (dfFloat 11 52) 0x3FC999999999999A#64 ∧
    w.exec double (.bin .ADD 0 1) = .ok (w1, [2]) := by
  have c : ∀ w ty v, Clean w (.const ty v) := fun _ _ _ => trivial
  have h1 : World.init.exec double (.const (dfFloat 11 52) 0x3FB999999999999A#64) = .ok (_, [0]) := rfl
  have hh1 := Hist.snoc (P := Clean) _ (.nil World.init) (c _ _ _) h1
  have h2 := Hist.snoc (P := Clean) (rs := [1]) (.const (dfFloat 11 52) 0x3FC999999999999A#64) hh1 (c _ _ _) rfl
  have add : ∀ w : World, retOne (w.createOrUseConst (dfFloat 11 52) (double.add 0x3FB999999999999A#64 0x3FC999999999999A#64)) =
      retOne (w.createOrUseConst (dfFloat 11 52) 0x3FD3333333333334#64) := fun w => by rw [tenths]
  refine ⟨_, _, rfl, h2, ⟨?_, rfl, rfl, rfl⟩, ⟨?_, rfl, rfl, rfl⟩, (add _).trans rfl⟩ <;>
    exact ⟨_, List.mem_cons_self .., by decide⟩

/-- An integer literal for a floating-point constant is not converted: `constant.var(dfFloat(11, 52), int64_t(1))` is 2^-1074, not 1. -/
theorem integer_literal_wrong : ∃ w : World, World.init.exec double (.const (dfFloat 11 52) (BitVec.ofInt 64 1)) = .ok (w, [0]) ∧
    w.IsConst 0 (dfFloat 11 52) 1#64 ∧ binary64.value 1 = 2 ^ (-1074 : Int) := by
  refine ⟨_, rfl, ⟨⟨_, List.mem_cons_self .., by decide⟩, rfl, rfl, rfl⟩, ?_⟩
  decide +kernel

/-! ### Configuration files -/

deriving instance DecidableEq for Fail
deriving instance DecidableEq for Except

/-- A number with a fraction is cut off, one that does not fit is undefined behaviour, one without a finite double is an error (C89, with the machine's
doubles). -/
theorem fractions_machine : fileLatency machine (some (addFile "2.5")) .add false = .ok 2 ∧
    fileLatency machine (some (addFile "1e9")) .add false = .error .undefined ∧
    fileLatency machine (some (addFile "65535.9999999999999")) .add false = .error .undefined ∧
    fileLatency machine (some (addFile "1e400")) .add false = .error .exception ∧
    fileLatency machine (some (addFile "-0.9")) .add false = .ok 0 := by
  refine ⟨?_, ?_, ?_, ?_, ?_⟩ <;> decide +kernel

def single7over3 : BitVec 32 := single.div (single.ofNat 7) (single.ofNat 3)
def singleEps : BitVec 32 := single.eps

/-- The single precision of the pipeliner: 7 layers in 3 stages have an average of 2.3333333; the tolerance is 1e-6. -/
example : single7over3 = 0x40155555#32 ∧ singleEps = 0x358637BD#32 := by decide +kernel

end Verif.Ieee
