import Verif.Ieee.Ops
import Verif.Dfcxx.SimProps
import Verif.Dfcxx.WorldFinal
import Verif.Sched.CombProps
/-
C91.  The machine's `double` and `float` as the parameters of the simulator (simulator.cpp:77-95, 109-110, 117-135, 168-169), of constant folding
(constant.cpp:61-71) and of the combinational pipeliner (DFCIRPipelineUtils.cpp:153-215): IEEE 754, rounding to nearest.
-/
namespace Verif.Ieee
open Verif.Dfcxx
open Verif.Sched (WF Small CombKernel combPipeline comb_pipeline_finishes Prog FloatArith)

/-- `double`.  `a > b` and `a >= b` are `b < a` and `b <= a`. -/
def double : FloatOps where
  add a b := BitVec.ofNat 64 (binary64.add a.toNat b.toNat)
  sub a b := BitVec.ofNat 64 (binary64.sub a.toNat b.toNat)
  mul a b := BitVec.ofNat 64 (binary64.mul a.toNat b.toNat)
  div a b := BitVec.ofNat 64 (binary64.div a.toNat b.toNat)
  neg a := BitVec.ofNat 64 (binary64.flip a.toNat)
  lt a b := binary64.lt a.toNat b.toNat
  le a b := binary64.lt a.toNat b.toNat || binary64.eq a.toNat b.toNat
  eq a b := binary64.eq a.toNat b.toNat

/-- `float` (`CombLatency`, DFCIRPipelineUtils.h:20); `floatEps` is the `double` 1e-6 converted (DFCIRPipelineUtils.h:66). -/
def single : FloatArith where
  F := BitVec 32
  ofNat n := BitVec.ofNat 32 (binary32.enc (.num false n))
  add a b := BitVec.ofNat 32 (binary32.add a.toNat b.toNat)
  sub a b := BitVec.ofNat 32 (binary32.sub a.toNat b.toNat)
  div a b := BitVec.ofNat 32 (binary32.div a.toNat b.toNat)
  gt a b := binary32.lt b.toNat a.toNat
  eps := BitVec.ofNat 32 (binary32.enc (.num false (binary64.value (binary64.enc (.num false (1 / 1000000))))))

/-! ### Results fit -/

theorem Fmt.enc_lt (f : Fmt) (d : Datum) : f.enc d < 2 ^ (f.p + f.w + 1) := by
  have ht := f.top_lt
  have hP : 2 ^ (f.p - 1) < 2 ^ f.p := Nat.pow_lt_pow_right (by decide) (by have := f.p_pos; omega)
  have h : f.top + 2 ^ f.p = 2 ^ (f.p + f.w) := by
    unfold Fmt.top
    rw [← Nat.succ_mul, Nat.pow_add, Nat.mul_comm (2 ^ f.p)]; congr 1
    have := Nat.two_pow_pos f.w
    omega
  rw [Nat.pow_succ]
  cases d with
  | nan => show f.top + 2 ^ (f.p - 1) < _; omega
  | inf s => show f.sgn s + f.top < _; unfold Fmt.sgn; split <;> omega
  | num s q =>
    have := (f.round_spec (abs_nonneg q)).1
    show f.sgn _ + f.round |q| < _
    unfold Fmt.sgn; split_ifs <;> omega

theorem Fmt.flip_lt (f : Fmt) {b : Nat} (hb : b < 2 ^ (f.p + f.w + 1)) : f.flip b < 2 ^ (f.p + f.w + 1) := by
  rw [Nat.pow_succ] at *
  have hT := Nat.two_pow_pos (f.p + f.w)
  unfold Fmt.flip
  split
  · omega
  · rename_i h
    have : b < 2 ^ (f.p + f.w) := by
      by_contra hge
      refine h ?_
      unfold Fmt.neg
      have : b / 2 ^ (f.p + f.w) = 1 := Nat.div_eq_of_lt_le (by omega) (by omega)
      rw [this]; rfl
    omega

theorem word_lt (a : Word) : a.toNat < 2 ^ (binary64.p + binary64.w + 1) := a.isLt
theorem toNat64 {n : Nat} (h : n < 2 ^ (binary64.p + binary64.w + 1)) : (BitVec.ofNat 64 n).toNat = n := by
  rw [BitVec.toNat_ofNat]; exact Nat.mod_eq_of_lt h
theorem toNat32 {n : Nat} (h : n < 2 ^ (binary32.p + binary32.w + 1)) : (BitVec.ofNat 32 n).toNat = n := by
  rw [BitVec.toNat_ofNat]; exact Nat.mod_eq_of_lt h

theorem double_add (a b : Word) : binary64.IsSum a.toNat b.toNat (double.add a b).toNat := by
  have e : (double.add a b).toNat = binary64.add a.toNat b.toNat := toNat64 (binary64.enc_lt _)
  rw [e]; exact binary64.add_isSum _ _
theorem double_sub (a b : Word) : binary64.IsDifference a.toNat b.toNat (double.sub a b).toNat := by
  have e : (double.sub a b).toNat = binary64.sub a.toNat b.toNat := toNat64 (binary64.enc_lt _)
  rw [e]; exact binary64.sub_isDifference _ (word_lt b)
theorem double_mul (a b : Word) : binary64.IsProduct a.toNat b.toNat (double.mul a b).toNat := by
  have e : (double.mul a b).toNat = binary64.mul a.toNat b.toNat := toNat64 (binary64.enc_lt _)
  rw [e]; exact binary64.mul_isProduct _ _
theorem double_div (a b : Word) : binary64.IsQuotient a.toNat b.toNat (double.div a b).toNat := by
  have e : (double.div a b).toNat = binary64.div a.toNat b.toNat := toNat64 (binary64.enc_lt _)
  rw [e]; exact binary64.div_isQuotient _ _
theorem double_neg (a : Word) : binary64.Opposite a.toNat (double.neg a).toNat := by
  show binary64.Opposite _ (BitVec.ofNat 64 (binary64.flip a.toNat)).toNat
  rw [toNat64 (binary64.flip_lt (word_lt a))]; exact binary64.flip_opposite (word_lt a)
theorem double_lt (a b : Word) : double.lt a b = true ↔ binary64.Less a.toNat b.toNat := binary64.lt_iff _ _
theorem double_eq (a b : Word) : double.eq a b = true ↔ binary64.Equal a.toNat b.toNat := binary64.eq_iff _ _

/-! ### Simulation -/

/-- What IEEE 754 says a node of a floating-point operator is, given its operands: numbers as the 64 bits of a `double`. -/
structure Computes (op : OpType) (x y v : Word) : Prop where
  add : op = .ADD → binary64.IsSum x.toNat y.toNat v.toNat
  sub : op = .SUB → binary64.IsDifference x.toNat y.toNat v.toNat
  mul : op = .MUL → binary64.IsProduct x.toNat y.toNat v.toNat
  div : op = .DIV → binary64.IsQuotient x.toNat y.toNat v.toNat

/-- In every step of a simulation, every sum, difference, product and quotient of floating-point type is the IEEE result of its operands' values. -/
theorem double_nodes_partial (V : Nat → NodeV) (order : List Nat) (ht : TopoOrder V order) (hs : ∀ n ∈ order, (V n).Shape) (ticks : List TickIn)
    (hw : ∀ inp ∈ ticks, NoWrap double V inp order) (vals : Vals) (out : List Vals) (h : runTicks double V order vals ticks = .ok (some out))
    (t : Nat) (tbl : Vals) (htbl : out[t]? = some tbl) {n a b : Nat} {rest : List Nat} (hn : n ∈ order) {e m : Nat} (hty : (V n).ty = .float e m)
    (hsrc : (V n).srcs = a :: b :: rest) :
    ∃ x y v, tbl a = some x ∧ tbl b = some y ∧ tbl n = some v ∧ Computes (V n).op x y v := by
  have hab : a ∈ order ∧ b ∈ order := ⟨before_mem_left (ht.before n hn a (by rw [hsrc]; simp)), before_mem_left (ht.before n hn b (by rw [hsrc]; simp))⟩
  obtain ⟨hlen, key⟩ := runTicks_computes_dataflow double V order ht hs ticks hw vals out h
  have hlt : t < out.length := (List.getElem?_eq_some_iff.1 htbl).1
  have key := key t _ tbl (List.getElem?_eq_getElem (hlen ▸ hlt)) htbl
  obtain ⟨x, hx, dx⟩ := key a hab.1
  obtain ⟨y, hy, dy⟩ := key b hab.2
  obtain ⟨v, hv, dv⟩ := key n hn
  refine ⟨x, y, v, hx, hy, hv, ?_⟩
  cases dv with
  | node n val v hargs hm =>
    rw [hsrc] at hargs hm
    have ea := denotes_unique double V _ (hargs a (by simp)) dx
    have eb := denotes_unique double V _ (hargs b (by simp)) dy
    rw [List.map_cons, List.map_cons, ea, eb] at hm
    constructor <;> intro ho <;> simp only [Means, ho, hty] at hm <;> rw [hm]
    · exact double_add x y
    · exact double_sub x y
    · exact double_mul x y
    · exact double_div x y

/-- The same for negation: the sign bit changes and nothing else. -/
theorem double_negation (V : Nat → NodeV) (order : List Nat) (ht : TopoOrder V order) (hs : ∀ n ∈ order, (V n).Shape) (ticks : List TickIn)
    (hw : ∀ inp ∈ ticks, NoWrap double V inp order) (vals : Vals) (out : List Vals) (h : runTicks double V order vals ticks = .ok (some out))
    (t : Nat) (tbl : Vals) (htbl : out[t]? = some tbl) {n a : Nat} {rest : List Nat} (hn : n ∈ order) {e m : Nat} (hty : (V n).ty = .float e m)
    (hop : (V n).op = .NEG) (hsrc : (V n).srcs = a :: rest) :
    ∃ x v, tbl a = some x ∧ tbl n = some v ∧ binary64.Opposite x.toNat v.toNat := by
  have ha : a ∈ order := before_mem_left (ht.before n hn a (by rw [hsrc]; simp))
  obtain ⟨hlen, key⟩ := runTicks_computes_dataflow double V order ht hs ticks hw vals out h
  have hlt : t < out.length := (List.getElem?_eq_some_iff.1 htbl).1
  have key := key t _ tbl (List.getElem?_eq_getElem (hlen ▸ hlt)) htbl
  obtain ⟨x, hx, dx⟩ := key a ha
  obtain ⟨v, hv, dv⟩ := key n hn
  refine ⟨x, v, hx, hv, ?_⟩
  cases dv with
  | node n val v hargs hm =>
    rw [hsrc] at hargs hm
    have ea := denotes_unique double V _ (hargs a (by simp)) dx
    rw [List.map_cons, ea] at hm
    simp only [Means, hop, hty] at hm
    rw [hm]; exact double_neg x

theorem low_plus {z : Word} (hz : binary64.neg z.toNat = false) : binary64.low z.toNat = z.toNat := by
  have h1 := word_lt z
  rw [Nat.pow_succ] at h1
  unfold Fmt.neg at hz
  have h2 : ¬ z.toNat / 2 ^ (binary64.p + binary64.w) % 2 = 1 := of_decide_eq_false hz
  refine Nat.mod_eq_of_lt ?_
  by_contra hge
  exact h2 (by rw [Nat.div_eq_of_lt_le (m := z.toNat) (n := 2 ^ (binary64.p + binary64.w)) (k := 1) (by omega) (by omega)])

theorem value_plus {z : Word} (hz : binary64.neg z.toNat = false) : binary64.value z.toNat = binary64.mag z.toNat := by
  rw [binary64.value_mag, hz, low_plus hz]; simp

/-- Numbers without a sign are ordered as their bits. -/
theorem less_bits {x y : Word} (hx : binary64.neg x.toNat = false) (hy : binary64.neg y.toNat = false) (fx : binary64.IsFinite x.toNat)
    (fy : binary64.IsFinite y.toNat) : binary64.Less x.toNat y.toNat ↔ x.toNat < y.toNat := by
  unfold Fmt.Less
  have e := binary64.mag_mono.lt_iff_lt (a := x.toNat) (b := y.toNat)
  rw [← value_plus hx, ← value_plus hy] at e
  simp only [fx, fy, binary64.not_inf_of_finite, binary64.not_nan_of_finite, not_false_iff, true_and, false_and, or_false]
  exact e

theorem equal_bits {x y : Word} (hx : binary64.neg x.toNat = false) (hy : binary64.neg y.toNat = false) (fx : binary64.IsFinite x.toNat)
    (fy : binary64.IsFinite y.toNat) : binary64.Equal x.toNat y.toNat ↔ x = y := by
  unfold Fmt.Equal
  have e := binary64.mag_mono.injective.eq_iff (a := x.toNat) (b := y.toNat)
  rw [← value_plus hx, ← value_plus hy] at e
  simp only [fx, fy, binary64.not_inf_of_finite, true_and, false_and, or_false]
  rw [e]; exact BitVec.toNat_inj

/-- What the standard says the comparisons of two numbers are, as a C++ `bool`. -/
structure Compares (op : OpType) (x y v : Word) : Prop where
  lt : op = .LESS → IsBool v (binary64.Less x.toNat y.toNat)
  gt : op = .GREATER → IsBool v (binary64.Less y.toNat x.toNat)
  le : op = .LESSEQ → IsBool v (binary64.Less x.toNat y.toNat ∨ binary64.Equal x.toNat y.toNat)
  ge : op = .GREATEREQ → IsBool v (binary64.Less y.toNat x.toNat ∨ binary64.Equal x.toNat y.toNat)
  eq : op = .EQ → IsBool v (binary64.Equal x.toNat y.toNat)
  ne : op = .NEQ → IsBool v (¬ binary64.Equal x.toNat y.toNat)

/-- A comparison of floating-point streams has the boolean type, so the simulator compares bit patterns.  For numbers without a sign this is the
comparison of the numbers. -/
theorem double_comparisons_partial (V : Nat → NodeV) (order : List Nat) (ht : TopoOrder V order) (hs : ∀ n ∈ order, (V n).Shape) (ticks : List TickIn)
    (hw : ∀ inp ∈ ticks, NoWrap double V inp order) (vals : Vals) (out : List Vals) (h : runTicks double V order vals ticks = .ok (some out))
    (t : Nat) (tbl : Vals) (htbl : out[t]? = some tbl) {n a b : Nat} {rest : List Nat} (hn : n ∈ order) (hc : (V n).op.isComparison = true)
    (hsrc : (V n).srcs = a :: b :: rest) :
    ∃ x y v, tbl a = some x ∧ tbl b = some y ∧ tbl n = some v ∧
      (binary64.IsFinite x.toNat → binary64.IsFinite y.toNat → binary64.neg x.toNat = false → binary64.neg y.toNat = false →
        Compares (V n).op x y v) := by
  have hab : a ∈ order ∧ b ∈ order := ⟨before_mem_left (ht.before n hn a (by rw [hsrc]; simp)), before_mem_left (ht.before n hn b (by rw [hsrc]; simp))⟩
  obtain ⟨hlen, key⟩ := runTicks_computes_dataflow double V order ht hs ticks hw vals out h
  have hlt : t < out.length := (List.getElem?_eq_some_iff.1 htbl).1
  have key := key t _ tbl (List.getElem?_eq_getElem (hlen ▸ hlt)) htbl
  obtain ⟨x, hx, dx⟩ := key a hab.1
  obtain ⟨y, hy, dy⟩ := key b hab.2
  obtain ⟨v, hv, dv⟩ := key n hn
  refine ⟨x, y, v, hx, hy, hv, fun fx fy nx ny => ?_⟩
  have hty : (V n).ty = .fixed false 1 0 := (hs n hn).comp hc
  have hl := less_bits nx ny fx fy
  have hg := less_bits ny nx fy fx
  have he := equal_bits nx ny fx fy
  have he' : x = y ↔ x.toNat = y.toNat := BitVec.toNat_inj.symm
  cases dv with
  | node n val v hargs hm =>
    rw [hsrc] at hargs hm
    have ea := denotes_unique double V _ (hargs a (by simp)) dx
    have eb := denotes_unique double V _ (hargs b (by simp)) dy
    rw [List.map_cons, List.map_cons, ea, eb] at hm
    constructor <;> intro ho <;> simp only [Means, ho, hty] at hm
    · rw [hl]; exact hm
    · rw [hg]; exact hm
    · rw [hl, he, he', ← Nat.le_iff_lt_or_eq]; exact hm
    · rw [hg, he, he', eq_comm, ← Nat.le_iff_lt_or_eq]; exact hm
    · rw [he]; exact hm
    · rw [he]; exact hm

/-- The three together, for every kernel the API can build, in the order in which the simulator processes its nodes. -/
theorem kernel_doubles_partial {w : World} {g : KGraph} {G : TopSort.Graph Nat} (h : Hist double Proper World.init w) (hf : Finished w g)
    (he : Enumeration w g G) :
    ∃ order, TopSort.topSort G = .ok order ∧ order.Perm g.nodes ∧ ∀ (ticks : List TickIn) (out : List Vals), (∀ inp ∈ ticks, NoWrap double w.view inp order) →
      runTicks double w.view order (fun _ => none) ticks = .ok (some out) → ∀ (t : Nat) (tbl : Vals), out[t]? = some tbl → ∀ n ∈ g.nodes,
        (∀ a b rest, (w.view n).srcs = a :: b :: rest → ∃ x y v, tbl a = some x ∧ tbl b = some y ∧ tbl n = some v ∧
          ((w.view n).ty.isFloat = true → Computes (w.view n).op x y v) ∧
          ((w.view n).op.isComparison = true → binary64.IsFinite x.toNat → binary64.IsFinite y.toNat → binary64.neg x.toNat = false →
            binary64.neg y.toNat = false → Compares (w.view n).op x y v)) ∧
        (∀ a rest, (w.view n).srcs = a :: rest → (w.view n).op = .NEG → (w.view n).ty.isFloat = true →
          ∃ x v, tbl a = some x ∧ tbl n = some v ∧ binary64.Opposite x.toNat v.toNat) := by
  obtain ⟨order, h1, h2, h3, -, h5⟩ := finished_kernel_is_processable h hf he
  refine ⟨order, h1, h2, fun ticks out hw hr t tbl htbl n hn => ?_⟩
  have hn := h2.mem_iff.2 hn
  refine ⟨fun a b rest hsrc => ?_, fun a rest hsrc hop hty => ?_⟩
  · obtain ⟨hlen, key⟩ := runTicks_computes_dataflow double w.view order h3 h5 ticks hw _ out hr
    have hlt : t < out.length := (List.getElem?_eq_some_iff.1 htbl).1
    have key := key t _ tbl (List.getElem?_eq_getElem (hlen ▸ hlt)) htbl
    obtain ⟨x, hx, -⟩ := key a (before_mem_left (h3.before n hn a (by rw [hsrc]; simp)))
    obtain ⟨y, hy, -⟩ := key b (before_mem_left (h3.before n hn b (by rw [hsrc]; simp)))
    obtain ⟨v, hv, -⟩ := key n hn
    refine ⟨x, y, v, hx, hy, hv, fun hty => ?_, fun hc => ?_⟩
    · cases hT : (w.view n).ty with
      | float e m =>
        obtain ⟨x', y', v', a1, a2, a3, a4⟩ := double_nodes_partial w.view order h3 h5 ticks hw _ out hr t tbl htbl hn hT hsrc
        rw [hx] at a1; rw [hy] at a2; rw [hv] at a3
        cases a1; cases a2; cases a3
        exact a4
      | fixed s i f => rw [hT] at hty; cases hty
      | rawBits n => rw [hT] at hty; cases hty
    · obtain ⟨x', y', v', a1, a2, a3, a4⟩ := double_comparisons_partial w.view order h3 h5 ticks hw _ out hr t tbl htbl hn hc hsrc
      rw [hx] at a1; rw [hy] at a2; rw [hv] at a3
      cases a1; cases a2; cases a3
      exact a4
  · cases hT : (w.view n).ty with
    | float e m => exact double_negation w.view order h3 h5 ticks hw _ out hr t tbl htbl hn hT hop hsrc
    | fixed s i f => rw [hT] at hty; cases hty
    | rawBits n => rw [hT] at hty; cases hty

/-! ### The combinational pipeliner -/

/-- Not a number, or without a minus sign. -/
def Datum.Plus : Datum → Prop
  | .nan => True
  | .inf s => s = false
  | .num s q => s = false ∧ 0 ≤ q

/-- Not a number, or not above 0. -/
def Datum.Minus : Datum → Prop
  | .nan => True
  | .inf s => s = true
  | .num _ q => q ≤ 0

theorem Datum.Plus.add {d e : Datum} (h : d.Plus) (h' : e.Plus) : (d.add e).Plus := by
  cases d <;> cases e <;> simp_all [Datum.Plus, Datum.add]
  exact add_nonneg h.2 h'.2

theorem Datum.Plus.div {d e : Datum} (h : d.Plus) (h' : e.Plus) : (d.div e).Plus := by
  cases d <;> cases e <;> simp_all [Datum.Plus, Datum.div]
  split_ifs <;> simp_all [Datum.Plus]
  exact div_nonneg h.2 h'.2

theorem Datum.Minus.add {d e : Datum} (h : d.Minus) (h' : e.Minus) : (d.add e).Minus := by
  cases d <;> cases e <;> simp_all [Datum.Minus, Datum.add]
  exact add_nonpos h h'

theorem Fmt.dec_enc_plus (f : Fmt) {d : Datum} (h : d.Plus) : (f.dec (f.enc d)).Plus := by
  cases d with
  | nan => rw [f.dec_nan f.enc_nan]; trivial
  | inf s =>
    obtain ⟨h1, h2⟩ := f.enc_inf s
    rw [f.dec_inf h1, h2]; exact h
  | num s q =>
    obtain ⟨rfl, hq⟩ := h
    have hn : f.neg (f.enc (.num false q)) = false := by
      rw [f.neg_num]; split
      · rfl
      · exact decide_eq_false (not_lt.2 hq)
    rcases f.cases (f.enc (.num false q)) with h' | h' | h'
    · rw [f.dec_finite h', hn]
      refine ⟨rfl, ?_⟩
      rw [f.value_mag, hn]
      simpa using f.mag_nonneg _
    · rw [f.dec_inf h', hn]; rfl
    · rw [f.dec_nan h']; trivial

theorem Fmt.dec_enc_minus (f : Fmt) {d : Datum} (h : d.Minus) : (f.dec (f.enc d)).Minus := by
  cases d with
  | nan => rw [f.dec_nan f.enc_nan]; trivial
  | inf s =>
    obtain ⟨h1, h2⟩ := f.enc_inf s
    rw [f.dec_inf h1, h2]; exact h
  | num s q =>
    have hq : q ≤ 0 := h
    rcases hq.lt_or_eq with hq | rfl
    · have hn : f.neg (f.enc (.num s q)) = true := by
        rw [f.neg_num, if_neg hq.ne]; exact decide_eq_true hq
      rcases f.cases (f.enc (.num s q)) with h' | h' | h'
      · rw [f.dec_finite h']
        show f.value _ ≤ 0
        rw [f.value_mag, hn]
        have := f.mag_nonneg (f.low (f.enc (.num s q)))
        simp only [if_true]; linarith
      · rw [f.dec_inf h', hn]; rfl
      · rw [f.dec_nan h']; trivial
    · have hl := f.low_num s 0
      rw [abs_zero, f.round_zero] at hl
      have hf : f.IsFinite (f.enc (.num s 0)) := (f.isFinite_iff _).2 (by rw [hl]; exact f.top_pos)
      rw [f.dec_finite hf]
      show f.value _ ≤ 0
      rw [f.value_mag, hl, f.mag_zero, mul_zero]

theorem Fmt.dec_flip (f : Fmt) {b : Nat} (hb : b < 2 ^ (f.p + f.w + 1)) (h : (f.dec b).Plus) : (f.dec (f.flip b)).Minus := by
  obtain ⟨h1, h2, h3⟩ := f.flip_opposite hb
  rcases f.cases b with h' | h' | h'
  · have hf : f.IsFinite (f.flip b) := by unfold Fmt.IsFinite; rw [h2]; exact h'
    rw [f.dec_finite h'] at h
    obtain ⟨e1, e2⟩ := h
    rw [f.dec_finite hf]
    show f.value _ ≤ 0
    rw [e1] at h1
    unfold Fmt.value at e2 ⊢
    rw [h1, h2, h3]
    rw [e1] at e2
    simp only [Bool.false_eq_true, if_false, one_mul, Bool.not_false, if_true] at e2 ⊢
    linarith
  · have hf : f.IsInf (f.flip b) := by unfold Fmt.IsInf; rw [h2, h3]; exact h'
    rw [f.dec_inf h'] at h
    rw [f.dec_inf hf, h1]
    show (!f.neg b) = true
    rw [show f.neg b = false from h]; rfl
  · have hf : f.IsNaN (f.flip b) := by unfold Fmt.IsNaN; rw [h2, h3]; exact h'
    rw [f.dec_nan hf]; trivial

theorem Datum.lt_plus_minus {d e : Datum} (h : d.Plus) (h' : e.Minus) : d.lt e = false := by
  cases d <;> cases e <;> simp_all [Datum.Plus, Datum.Minus, Datum.lt]
  exact le_trans h' h.2

theorem small_lt : |(1 / 1000000 : ℚ)| < binary64.overflow := by
  have h : binary64.overflow = 2 ^ 1024 - 2 ^ 970 := by
    unfold Fmt.overflow binary64; norm_num
  have h1 : (1 : ℚ) ≤ 2 ^ 970 := one_le_pow₀ (by norm_num)
  have h2 : (2 : ℚ) ^ 1024 = 2 ^ 970 * 2 ^ 54 := by rw [← pow_add]
  rw [h, h2, abs_of_pos (by norm_num)]
  generalize (2 : ℚ) ^ 970 = z at h1
  have h3 : (2 : ℚ) ≤ 2 ^ 54 := by norm_num
  generalize (2 : ℚ) ^ 54 = y at h3
  nlinarith

/-- The machine's single precision is what `comb_pipeline_finishes` needs. -/
theorem single_sane : single.Sane := by
  have t32 : ∀ d, (BitVec.ofNat 32 (binary32.enc d)).toNat = binary32.enc d := fun d => toNat32 (binary32.enc_lt d)
  have hof : ∀ n : Nat, (binary32.dec (single.ofNat n).toNat).Plus := by
    intro n
    show (binary32.dec (BitVec.ofNat 32 _).toNat).Plus
    rw [t32]
    exact binary32.dec_enc_plus ⟨rfl, Nat.cast_nonneg n⟩
  refine ⟨fun x => (binary32.dec x.toNat).Plus, hof, ?_, ?_, ?_⟩
  · intro x y hx hy
    show (binary32.dec (BitVec.ofNat 32 (binary32.enc _)).toNat).Plus
    rw [t32]
    exact binary32.dec_enc_plus (hx.add hy)
  · intro x n hx _
    show (binary32.dec (BitVec.ofNat 32 (binary32.enc _)).toNat).Plus
    rw [t32]
    exact binary32.dec_enc_plus (hx.div (hof n))
  · intro a ha
    have hm : ∀ x y : BitVec 32, (binary32.dec x.toNat).Minus → (binary32.dec y.toNat).Minus → (binary32.dec (single.add x y).toNat).Minus := by
      intro x y hx hy
      show (binary32.dec (BitVec.ofNat 32 (binary32.enc _)).toNat).Minus
      rw [t32]
      exact binary32.dec_enc_minus (hx.add hy)
    have hsub : ∀ x y : BitVec 32, (binary32.dec x.toNat).Minus → (binary32.dec y.toNat).Plus → (binary32.dec (single.sub x y).toNat).Minus := by
      intro x y hx hy
      show (binary32.dec (BitVec.ofNat 32 (binary32.enc _)).toNat).Minus
      rw [t32]
      exact binary32.dec_enc_minus (hx.add (binary32.dec_flip y.isLt hy))
    have h0 : (binary32.dec (single.ofNat 0).toNat).Minus := by
      show (binary32.dec (BitVec.ofNat 32 _).toNat).Minus
      rw [t32]
      refine binary32.dec_enc_minus ?_
      show ((0 : Nat) : ℚ) ≤ 0
      simp
    refine Datum.lt_plus_minus ?_ (hm _ _ (hsub _ _ (hsub _ _ (hm _ _ h0 h0) ha) ha) h0)
    show (binary32.dec (BitVec.ofNat 32 _).toNat).Plus
    rw [t32]
    refine binary32.dec_enc_plus ⟨rfl, ?_⟩
    have := binary64.dec_enc_plus (d := .num false (1 / 1000000)) ⟨rfl, by norm_num⟩
    rcases binary64.cases (binary64.enc (.num false (1 / 1000000))) with h | h | h
    · rw [binary64.dec_finite h] at this; exact this.2
    · exfalso
      refine binary64.not_inf_of_finite ((binary64.enc_num false (1 / 1000000)).rounds.finite ?_) h
      exact small_lt
    · exfalso
      refine binary64.not_nan_of_finite ((binary64.enc_num false (1 / 1000000)).rounds.finite ?_) h
      exact small_lt

/-- **C33 on the machine**: the pass finishes on every such kernel, whatever the number of stages. -/
theorem comb_pipeline_finishes_single {P : Prog} (hP : WF P) (hsm : Small P) (hK : CombKernel P) (hargs : ∀ i < P.size, P.defn i ≠ .node [])
    (stages : Nat) (hst : stages < 2 ^ 31) (order : List (Sched.Chan × Int) → List (Sched.Chan × Int)) (horder : ∀ l, (order l).Perm l) :
    ∃ P', combPipeline single stages order P = .ok P' :=
  comb_pipeline_finishes hP hsm hK hargs single single_sane stages hst order horder

end Verif.Ieee
