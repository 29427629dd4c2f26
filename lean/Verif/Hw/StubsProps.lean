import Verif.Hw.Stubs
import Mathlib.Tactic.NormNum
import Mathlib.Tactic.Positivity
import Mathlib.Tactic.Tauto
/-
Properties of the generated Verilog units (C39, C40, C54).
-/
namespace Verif.Hw

/-! ### Specification -/

/-- The number a vector of a signed or unsigned type stands for. -/
def val {w : Nat} (sgn : Bool) (x : BitVec w) : Int := if sgn then x.toInt else x.toNat

/-- The operation a Verilog operator is meant to compute on numbers (arithmetic ones). -/
def arithSpec : VOp → Option (Int → Int → Int)
  | .add => some (· + ·)
  | .sub => some (· - ·)
  | .mul => some (· * ·)
  | _ => none

/-- The relation a Verilog operator is meant to decide on numbers. -/
def compSpec : VOp → Option (Int → Int → Bool)
  | .le => some fun a b => decide (a ≤ b)
  | .ge => some fun a b => decide (a ≥ b)
  | .lt => some fun a b => decide (a < b)
  | .gt => some fun a b => decide (a > b)
  | .eq => some fun a b => decide (a = b)
  | .ne => some fun a b => decide (a ≠ b)
  | _ => none

/-! ### Shift registers -/

theorem applyNba_append {α : Type} (r : Nat → α) (as bs : List (Nat × α)) :
    applyNba r (as ++ bs) = applyNba (applyNba r as) bs := by
  simp [applyNba, List.foldl_append]

theorem applyNba_shiftLoop {α : Type} (r : Nat → α) : ∀ (n : Nat) (s : Nat → α) (j : Nat),
    applyNba s (shiftLoop r n) j = if 0 < j ∧ j ≤ n then r (j - 1) else s j
  | 0, s, j => by
    have : ¬ (0 < j ∧ j ≤ 0) := by omega
    rw [if_neg this]; rfl
  | n + 1, s, j => by
    have h : applyNba s (shiftLoop r (n + 1)) = applyNba (fun j => if j = n + 1 then r n else s j) (shiftLoop r n) := rfl
    rw [h, applyNba_shiftLoop r n]
    by_cases h1 : 0 < j ∧ j ≤ n
    · have h2 : 0 < j ∧ j ≤ n + 1 := by omega
      simp [h1, h2]
    · by_cases h3 : j = n + 1
      · subst h3; simp
      · have h2 : ¬ (0 < j ∧ j ≤ n + 1) := by omega
        simp [h1, h2, h3]

theorem shiftEdge_eq {α : Type} (n : Nat) (r : Nat → α) (x : α) (j : Nat) :
    shiftEdge n r x j = if j = 0 then x else if j ≤ n then r (j - 1) else r j := by
  rw [shiftEdge, applyNba_append]
  show (if j = 0 then x else _) = _
  rw [applyNba_shiftLoop]
  by_cases h : j = 0
  · simp [h]
  · have h0 : 0 < j := by omega
    simp [h, h0]

theorem shiftState_delay {α : Type} (n : Nat) (r0 : Nat → α) (x : Nat → α) : ∀ (i t : Nat), i ≤ n →
    shiftState n r0 x (t + i + 1) i = x t
  | 0, t, _ => by simp [shiftState, shiftEdge_eq]
  | i + 1, t, h => by
    show shiftEdge n (shiftState n r0 x (t + (i + 1))) _ (i + 1) = x t
    rw [shiftEdge_eq]
    simp only [Nat.add_one_ne_zero, if_false, h, if_true, Nat.add_sub_cancel]
    exact shiftState_delay n r0 x i t (by omega)

theorem shiftState_latency {α : Type} (L : Nat) (hL : 0 < L) (r0 : Nat → α) (x : Nat → α) (t : Nat) :
    shiftState (L - 1) r0 x (t + L) (L - 1) = x t := by
  have h := shiftState_delay (L - 1) r0 x (L - 1) t (Nat.le_refl _)
  have e : t + (L - 1) + 1 = t + L := by omega
  rwa [e] at h

/-- **C39.** The FIFO of depth `L > 0` outputs in cycle `t + L` the value that was on its input in cycle `t`, whatever its
registers held at power-up. -/
theorem fifo_exact_delay {w : Nat} (L : Nat) (hL : 0 < L) (r0 : Nat → BitVec w) (arg1 : Nat → BitVec w) (t : Nat) :
    fifoOut L r0 arg1 (t + L) = arg1 t :=
  shiftState_latency L hL r0 arg1 t

example : fifoOut 3 (fun _ => 0#8) (fun t => BitVec.ofNat 8 (10 + t)) 5 = 12#8 := by decide

/-! ### Extension and truncation -/

theorem repCat_false_setWidth {w : Nat} (n m : Nat) (x : BitVec w) : (repCat n false x).setWidth m = x.setWidth m := by
  apply BitVec.eq_of_getLsbD_eq
  intro i hi
  simp only [repCat, BitVec.getLsbD_setWidth, BitVec.getLsbD_append]
  by_cases h : i < w
  · simp [h]
  · simp [h, BitVec.getLsbD_of_ge x i (by omega)]

theorem repCat_sign_setWidth {w : Nat} (n m : Nat) (h : m ≤ n + w) (x : BitVec w) :
    (repCat n (x.getLsbD (w - 1)) x).setWidth m = x.signExtend m := by
  apply BitVec.eq_of_getLsbD_eq
  intro i hi
  simp only [repCat, BitVec.getLsbD_setWidth, BitVec.getLsbD_append, BitVec.getLsbD_signExtend, hi, decide_true,
    Bool.true_and]
  by_cases hw : i < w
  · simp [hw]
  · simp only [hw, if_false]
    rw [BitVec.msb_eq_getLsbD_last]
    by_cases hb : x.getLsbD (w - 1) = true
    · have hn : i - w < n := by omega
      simp [hb, hn]
    · simp at hb
      simp [hb]

theorem setWidth_eq_ofInt {w : Nat} (m : Nat) (x : BitVec w) : x.setWidth m = BitVec.ofInt m (val false x) := by
  apply BitVec.eq_of_toNat_eq
  simp only [val, BitVec.toNat_setWidth, BitVec.toNat_ofInt, Bool.false_eq_true, if_false]
  have : ((x.toNat : Int) % ((2 ^ m : Nat) : Int)) = ((x.toNat % 2 ^ m : Nat) : Int) := by norm_cast
  rw [this, Int.toNat_natCast]

theorem signExtend_eq_ofInt {w : Nat} (m : Nat) (x : BitVec w) : x.signExtend m = BitVec.ofInt m (val true x) := rfl

/-- The low `w2` bits of the number do not depend on signedness if `w2 ≤ w1`. -/
theorem ofInt_val_narrow {w1 : Nat} (w2 : Nat) (h : w2 ≤ w1) (s s' : Bool) (x : BitVec w1) :
    BitVec.ofInt w2 (val s x) = BitVec.ofInt w2 (val s' x) := by
  have key : x.signExtend w2 = x.setWidth w2 := BitVec.signExtend_eq_setWidth_of_le x h
  have e : BitVec.ofInt w2 (val true x) = BitVec.ofInt w2 (val false x) := by
    rw [← signExtend_eq_ofInt, key, setWidth_eq_ofInt]
  cases s <;> cases s' <;> first | rfl | exact e | exact e.symm

theorem setWidth_ofInt_le {m n : Nat} (h : m ≤ n) (z : Int) : (BitVec.ofInt n z).setWidth m = BitVec.ofInt m z := by
  apply BitVec.eq_of_toNat_eq
  rw [BitVec.toNat_setWidth, BitVec.toNat_ofInt, BitVec.toNat_ofInt]
  have hn : (0 : Int) ≤ z % ((2 ^ n : Nat) : Int) := Int.emod_nonneg _ (by positivity)
  have hm : (0 : Int) ≤ z % ((2 ^ m : Nat) : Int) := Int.emod_nonneg _ (by positivity)
  have : (((z % ((2 ^ n : Nat) : Int)).toNat % 2 ^ m : Nat) : Int) = ((z % ((2 ^ m : Nat) : Int)).toNat : Int) := by
    rw [Int.natCast_mod, Int.toNat_of_nonneg hn, Int.toNat_of_nonneg hm]
    apply Int.emod_emod_of_dvd
    exact_mod_cast Nat.pow_dvd_pow 2 h
  exact_mod_cast this

theorem extract_low {w : Nat} (m : Nat) (x : BitVec w) : x.extractLsb' 0 m = x.setWidth m := by
  apply BitVec.eq_of_getLsbD_eq
  intro i hi
  simp [BitVec.getLsbD_extractLsb', hi]

theorem setWidth_max_left {w : Nat} (a b : Nat) (x : BitVec w) : (x.setWidth (max a b)).setWidth a = x.setWidth a := by
  apply BitVec.eq_of_getLsbD_eq
  intro i hi
  have : i < max a b := by omega
  simp [BitVec.getLsbD_setWidth, hi, this]

/-! ### Casts -/

theorem combCast_eq {w1 : Nat} (w2 : Nat) (rs : Bool) (x : BitVec w1) : combCast w2 rs x = BitVec.ofInt w2 (val rs x) := by
  rw [combCast, extract_low, castCat, setWidth_max_left]
  cases rs
  · simp only [castRepeatVal, Bool.false_eq_true, if_false]
    rw [repCat_false_setWidth, setWidth_eq_ofInt]
  · simp only [castRepeatVal, if_true]
    rw [repCat_sign_setWidth _ _ (by omega), signExtend_eq_ofInt]

theorem castOut_eq {w1 : Nat} (w2 : Nat) (rs : Bool) (L : Nat) (hL : 0 < L) (r0 : Nat → BitVec w1) (arg1 : Nat → BitVec w1)
    (t : Nat) (h : w2 ≤ w1 ∨ rs = false) : castOut w2 rs L r0 arg1 (t + L) = BitVec.ofInt w2 (val rs (arg1 t)) := by
  rw [castOut, shiftState_latency L hL, extract_low, castCat, setWidth_max_left]
  rcases h with h | h
  · have e : w2 - w1 = 0 := by omega
    have : ∀ b, (repCat (w2 - w1) b (arg1 t)).setWidth w2 = (arg1 t).setWidth w2 := by
      intro b
      apply BitVec.eq_of_getLsbD_eq
      intro i hi
      have : i < w1 := by omega
      simp [repCat, BitVec.getLsbD_setWidth, BitVec.getLsbD_append, this]
    rw [this, setWidth_eq_ofInt, ofInt_val_narrow w2 h rs false]
  · subst h
    simp only [castRepeatVal, Bool.false_eq_true, if_false]
    rw [repCat_false_setWidth, setWidth_eq_ofInt]

/-- **C40 (partial).** A cast unit outputs, `L` cycles later, the operand's number truncated or extended to the result width,
for every width pair, latency and input stream, provided that (1) the cast is not widening, or operand and result have the
same signedness, and (2) the cast is not widening, or the result is unsigned, or the unit is combinational (`L = 0`).
Missing: the two excluded cases, where the claim is false (`cast_signed_widening_wrong`, `cast_unsigned_to_signed_wrong`). -/
theorem cast_unit_partial {w1 : Nat} (w2 : Nat) (argSigned resSigned : Bool) (L : Nat) (r0 : Nat → BitVec w1)
    (arg1 : Nat → BitVec w1) (t : Nat) (h1 : w2 ≤ w1 ∨ argSigned = resSigned)
    (h2 : w2 ≤ w1 ∨ resSigned = false ∨ L = 0) :
    castModule w2 resSigned L r0 arg1 (t + L) = BitVec.ofInt w2 (val argSigned (arg1 t)) := by
  have hs : BitVec.ofInt w2 (val argSigned (arg1 t)) = BitVec.ofInt w2 (val resSigned (arg1 t)) := by
    rcases h1 with h | h
    · exact ofInt_val_narrow w2 h _ _ _
    · rw [h]
  rw [hs, castModule]
  by_cases hL : L = 0
  · subst hL
    simp [combCast_eq]
  · rw [if_pos hL]
    exact castOut_eq w2 resSigned L (by omega) r0 arg1 t (by tauto)

example : castModule 8 false 2 (fun _ => 0#16) (fun t => BitVec.ofNat 16 (0x1234 + t)) (1 + 2) = 0x35#8 := by decide

/-- **C40 is false** for pipelined widening casts to a signed type: for every latency `L > 0` and widths `w1 < w2` there is
an input stream on which the unit's output is not the sign-extended operand of `L` cycles before.  (The extension bits come
from the operand of the current cycle.) -/
theorem cast_signed_widening_wrong (w1 w2 L : Nat) (hw : 0 < w1) (h : w1 < w2) (hL : 0 < L) (r0 : Nat → BitVec w1) :
    ∃ (arg1 : Nat → BitVec w1) (t : Nat), castModule w2 true L r0 arg1 (t + L) ≠ BitVec.ofInt w2 (val true (arg1 t)) := by
  refine ⟨fun t => if t = 0 then 0#w1 else BitVec.allOnes w1, 0, ?_⟩
  intro heq
  have hL' : L ≠ 0 := by omega
  have hg := congrArg (fun v => v.getLsbD w1) heq
  rw [castModule, if_pos hL', castOut, shiftState_latency L hL, extract_low, castCat, setWidth_max_left] at hg
  have hv : val true (0#w1) = 0 := by simp [val]
  have hlt : w1 - 1 < w1 := by omega
  have h0 : 0 < w2 - w1 := by omega
  simp [castRepeatVal, hL', repCat, BitVec.getLsbD_setWidth, BitVec.getLsbD_append, h, hlt, h0, hv, BitVec.getElem_append] at hg

/-- **C40 is false** for widening casts from an unsigned to a signed type: a value with its top bit set becomes negative. -/
theorem cast_unsigned_to_signed_wrong (w1 w2 : Nat) (hw : 0 < w1) (h : w1 < w2) (r0 arg1 : Nat → BitVec w1) (t : Nat)
    (hx : (arg1 t).getLsbD (w1 - 1) = true) :
    castModule w2 true 0 r0 arg1 t ≠ BitVec.ofInt w2 (val false (arg1 t)) := by
  intro heq
  have hg := congrArg (fun v => v.getLsbD w1) heq
  rw [← setWidth_eq_ofInt] at hg
  simp only [castModule, ne_eq, not_true_eq_false, if_false, combCast_eq, ← signExtend_eq_ofInt] at hg
  rw [BitVec.getLsbD_signExtend, BitVec.getLsbD_setWidth, BitVec.msb_eq_getLsbD_last, hx] at hg
  simp [h] at hg

example : castModule 16 true 0 (fun _ => 0#8) (fun _ => 0xFF#8) 0 = 0xFFFF#16 := by decide

/-! ### Binary units -/

theorem prepared_arith {w : Nat} (op : VOp) (h : op.isComp = false) (s3 : Bool) (w1 w2 : Nat) (hw : w = w1 ∨ w = w2)
    (x : BitVec w) : prepared op s3 w1 w2 x = BitVec.ofInt (max w1 w2) (val s3 x) := by
  have hr : rWidth op w1 w2 = max w1 w2 := by simp [rWidth, h]
  unfold prepared
  cases s3
  · simp only [Bool.false_eq_true, if_false]
    rw [repCat_false_setWidth, setWidth_eq_ofInt]
  · simp only [if_true]
    rw [repCat_sign_setWidth _ _ (by rw [hr]; omega), signExtend_eq_ofInt]

/-- What a comparison sees: the operand zero-extended, whatever its signedness. -/
theorem prepared_comp {w : Nat} (op : VOp) (h : op.isComp = true) (s3 : Bool) (w1 w2 : Nat) (hpos : 0 < w)
    (x : BitVec w) : prepared op s3 w1 w2 x = x.setWidth (max w1 w2) := by
  have hr : rWidth op w1 w2 - w = 0 := by simp [rWidth, h]; omega
  unfold prepared
  apply BitVec.eq_of_getLsbD_eq
  intro i hi
  simp only [repCat, BitVec.getLsbD_setWidth, BitVec.getLsbD_append]
  by_cases hw : i < w
  · simp [hw]
  · have : x.getLsbD i = false := BitVec.getLsbD_of_ge x i (by omega)
    simp only [hw, this, if_false, Bool.and_false, Bool.and_eq_false_iff]
    right
    apply BitVec.getLsbD_of_ge
    omega

theorem resOf_low {rw w3 : Nat} (h : w3 ≤ rw) (b : Bool) (r : BitVec rw) : resOf w3 b r = r.setWidth w3 := by
  rw [resOf, extract_low, setWidth_max_left]
  apply BitVec.eq_of_getLsbD_eq
  intro i hi
  have : i < rw := by omega
  simp [repCat, BitVec.getLsbD_setWidth, BitVec.getLsbD_append, this]

theorem opRhs_arith {w1 w2 : Nat} (op : VOp) (f : Int → Int → Int) (hf : arithSpec op = some f) (s1 s2 s3 : Bool)
    (a : BitVec w1) (b : BitVec w2) :
    (opRhs op s1 s2 s3 a b).setWidth (max w1 w2) = BitVec.ofInt (max w1 w2) (f (val s3 a) (val s3 b)) := by
  have hc : op.isComp = false := by cases op <;> simp_all [arithSpec, VOp.isComp]
  have hr : rWidth op w1 w2 = max w1 w2 := by simp [rWidth, hc]
  unfold opRhs
  simp only [hc, Bool.false_eq_true, if_false]
  rw [prepared_arith op hc s3 w1 w2 (Or.inl rfl), prepared_arith op hc s3 w1 w2 (Or.inr rfl)]
  have e : ∀ v : BitVec (max w1 w2), (v.setWidth (rWidth op w1 w2)).setWidth (max w1 w2) = v := by
    intro v
    apply BitVec.eq_of_getLsbD_eq
    intro i hi
    have : i < rWidth op w1 w2 := by omega
    simp only [BitVec.getLsbD_setWidth, hi, this, decide_true, Bool.true_and]
  rw [e]
  cases op <;> simp [arithSpec] at hf <;> subst hf
  · simp [varith, BitVec.ofInt_add]
  · simp only [varith]
    rw [BitVec.sub_eq_add_neg, ← BitVec.ofInt_neg, ← BitVec.ofInt_add, ← Int.sub_eq_add_neg]
  · simp [varith, BitVec.ofInt_mul]

/-- The operand whose type has signedness `s`, seen at width `w3`, does not change when read with signedness `s3`. -/
def ReadsRight {w : Nat} (w3 : Nat) (s s3 : Bool) (_ : BitVec w) : Prop := w3 ≤ w ∨ s = s3

theorem ofInt_emod (n : Nat) (a b : Int) (h : BitVec.ofInt n a = BitVec.ofInt n b) :
    a % ((2 ^ n : Nat) : Int) = b % ((2 ^ n : Nat) : Int) := by
  have ht := congrArg BitVec.toNat h
  rw [BitVec.toNat_ofInt, BitVec.toNat_ofInt] at ht
  have ha : (0 : Int) ≤ a % ((2 ^ n : Nat) : Int) := Int.emod_nonneg _ (by positivity)
  have hb : (0 : Int) ≤ b % ((2 ^ n : Nat) : Int) := Int.emod_nonneg _ (by positivity)
  omega

theorem arith_congr (op : VOp) (f : Int → Int → Int) (hf : arithSpec op = some f) (n : Nat) {a a' b b' : Int}
    (ha : BitVec.ofInt n a = BitVec.ofInt n a') (hb : BitVec.ofInt n b = BitVec.ofInt n b') :
    BitVec.ofInt n (f a b) = BitVec.ofInt n (f a' b') := by
  cases op <;> simp [arithSpec] at hf <;> subst hf
  · simp [BitVec.ofInt_add, ha, hb]
  · show BitVec.ofInt n (a - b) = BitVec.ofInt n (a' - b')
    rw [Int.sub_eq_add_neg, Int.sub_eq_add_neg, BitVec.ofInt_add, BitVec.ofInt_add, BitVec.ofInt_neg, BitVec.ofInt_neg, ha, hb]
  · simp [BitVec.ofInt_mul, ha, hb]

theorem extended_reads {w : Nat} (w3 p : Nat) (hp : w3 ≤ p) (s s3 : Bool) (x : BitVec w) (h : w3 ≤ w ∨ s = s3) :
    BitVec.ofInt w3 (val s3 x) = BitVec.ofInt w3 (val s x) := by
  rcases h with h | h
  · exact ofInt_val_narrow w3 h _ _ _
  · rw [h]

/-- **C54 (partial): addition, subtraction, multiplication.** A generated arithmetic unit with latency `L > 0` outputs, `L`
cycles later, the sum/difference/product of the operands' numbers modulo 2^`w3`, for all widths, latencies and input
streams, if the result is not wider than the wider operand and each operand is at least as wide as the result or of the
result's signedness.  Missing: results wider than both operands (the overflow bits are lost) and a narrower operand of the
other signedness (`mixed_sign_add_wrong`). -/
theorem arith_unit_partial {w1 w2 : Nat} (op : VOp) (f : Int → Int → Int) (hf : arithSpec op = some f) (s1 s2 s3 : Bool)
    (w3 L : Nat) (hL : 0 < L) (h3 : w3 ≤ max w1 w2) (h1 : w3 ≤ w1 ∨ s1 = s3) (h2 : w3 ≤ w2 ∨ s2 = s3)
    (r0 : Nat → BitVec (rWidth op w1 w2)) (arg1 : Nat → BitVec w1) (arg2 : Nat → BitVec w2) (t : Nat) :
    binaryModule op s1 s2 s3 w3 L r0 arg1 arg2 (t + L) =
      some (BitVec.ofInt w3 (f (val s1 (arg1 t)) (val s2 (arg2 t)))) := by
  have hL' : L ≠ 0 := by omega
  have hc : op.isComp = false := by cases op <;> simp_all [arithSpec, VOp.isComp]
  have hr : rWidth op w1 w2 = max w1 w2 := by simp [rWidth, hc]
  rw [binaryModule, if_pos hL', binaryOut]
  simp only [shiftState_latency L hL]
  rw [resOf_low (by omega)]
  have e : ∀ v : BitVec (rWidth op w1 w2), v.setWidth w3 = (v.setWidth (max w1 w2)).setWidth w3 := by
    intro v
    apply BitVec.eq_of_getLsbD_eq
    intro i hi
    have : i < max w1 w2 := by omega
    simp only [BitVec.getLsbD_setWidth, hi, this, decide_true, Bool.true_and]
  rw [e, opRhs_arith op f hf, setWidth_ofInt_le h3,
    arith_congr op f hf w3 (extended_reads w3 _ h3 s1 s3 _ h1) (extended_reads w3 _ h3 s2 s3 _ h2)]

example : binaryModule .sub true true true 8 2 (fun _ => 0) (fun t => BitVec.ofInt 8 (5 + t)) (fun _ => BitVec.ofInt 4 (-3))
    (1 + 2) = some 9#8 := by decide

/-- **C54 (partial): comparisons.** A generated comparison unit with an unsigned result of `w3 ≥ 1` bits and latency `L`
outputs, `L` cycles later, whether the relation holds between the operands' numbers, if the operands are both unsigned or
both signed of the same width.  Missing: signed operands of different widths (`signed_compare_widths_wrong`) and operands of
different signedness. -/
theorem compare_unit_partial {w1 w2 : Nat} (op : VOp) (f : Int → Int → Bool) (hf : compSpec op = some f) (s1 s2 : Bool)
    (w3 L : Nat) (hw1 : 0 < w1) (hw2 : 0 < w2) (hs : s1 = s2) (h : s1 = false ∨ w1 = w2)
    (r0 : Nat → BitVec (rWidth op w1 w2)) (arg1 : Nat → BitVec w1) (arg2 : Nat → BitVec w2) (t : Nat) :
    binaryModule op s1 s2 false w3 L r0 arg1 arg2 (t + L) =
      some (BitVec.ofNat w3 (f (val s1 (arg1 t)) (val s2 (arg2 t))).toNat) := by
  have hc : op.isComp = true := by cases op <;> simp_all [compSpec, VOp.isComp]
  have hr : rWidth op w1 w2 = 1 := by simp [rWidth, hc]
  have hv : vcomp op (s1 && s2) ((arg1 t).setWidth (max w1 w2)) ((arg2 t).setWidth (max w1 w2)) =
      f (val s1 (arg1 t)) (val s2 (arg2 t)) := by
    subst hs
    cases s1
    · have ea : (arg1 t).toNat < 2 ^ max w1 w2 :=
        Nat.lt_of_lt_of_le (arg1 t).isLt (Nat.pow_le_pow_right (by omega) (by omega))
      have eb : (arg2 t).toNat < 2 ^ max w1 w2 :=
        Nat.lt_of_lt_of_le (arg2 t).isLt (Nat.pow_le_pow_right (by omega) (by omega))
      cases op <;> simp [compSpec] at hf <;> subst hf <;>
        simp [vcomp, val, BitVec.ule, BitVec.ult, BitVec.toNat_setWidth, Nat.mod_eq_of_lt ea, Nat.mod_eq_of_lt eb,
          ← BitVec.toNat_inj, bne, BEq.beq]
    · have hw : w1 = w2 := by simpa using h
      subst hw
      have e : ∀ x : BitVec w1, (x.setWidth (max w1 w1)).toInt = x.toInt := by
        intro x
        have hm : max w1 w1 = w1 := Nat.max_self w1
        rw [BitVec.toInt_eq_toNat_bmod, BitVec.toInt_eq_toNat_bmod, BitVec.toNat_setWidth]
        rw [Nat.mod_eq_of_lt (Nat.lt_of_lt_of_le x.isLt (by rw [hm])), hm]
      cases op <;> simp [compSpec] at hf <;> subst hf <;>
        simp [vcomp, val, BitVec.sle, BitVec.slt, e, ← BitVec.toInt_inj, bne, BEq.beq]
  have hres : resOf w3 false (opRhs op s1 s2 false (arg1 t) (arg2 t)) =
      BitVec.ofNat w3 (f (val s1 (arg1 t)) (val s2 (arg2 t))).toNat := by
    rw [resOf, extract_low, setWidth_max_left, repCat_false_setWidth]
    unfold opRhs
    simp only [hc, if_true]
    rw [prepared_comp op hc _ _ _ hw1, prepared_comp op hc _ _ _ hw2, hv]
    apply BitVec.eq_of_toNat_eq
    rw [BitVec.toNat_setWidth, BitVec.toNat_setWidth, BitVec.toNat_ofNat, hr]
    cases f (val s1 (arg1 t)) (val s2 (arg2 t)) <;> simp
  rw [binaryModule]
  by_cases hL : L = 0
  · subst hL
    simp [combBinary, hres]
  · rw [if_pos hL, binaryOut]
    simp only [shiftState_latency L (by omega : 0 < L), Bool.false_eq_true, if_false, hres]

example : binaryModule .le true true false 1 1 (fun _ => 0) (fun _ => BitVec.ofInt 8 (-5)) (fun _ => BitVec.ofInt 8 3) (0 + 1) =
    some 1#1 := by decide

/-- **C54 is false** for signed operands of different widths: a negative narrower operand is compared as if it were
positive; with widths 4 and 8, `-1 < 0` yields 0. -/
theorem signed_compare_widths_wrong (L : Nat) (r0 : Nat → BitVec (rWidth .lt 4 8)) :
    binaryModule .lt true true false 1 L r0 (fun _ => BitVec.ofInt 4 (-1)) (fun _ => 0#8) (0 + L) = some 0#1 ∧
      val true (BitVec.ofInt 4 (-1)) < val true (0#8) := by
  constructor
  · rw [binaryModule]
    by_cases hL : L = 0
    · subst hL
      rw [if_neg (by simp)]; decide
    · rw [if_pos hL, binaryOut]
      simp only [shiftState_latency L (by omega : 0 < L)]
      decide
  · decide

/-- **C54 is false** for mixed signedness: a signed 8-bit value plus an unsigned 4-bit 15 gives the value minus 1 (the unsigned
operand is sign-extended because the result is signed). -/
theorem mixed_sign_add_wrong (L : Nat) (hL : 0 < L) (r0 : Nat → BitVec (rWidth .add 8 4)) (x : BitVec 8) :
    binaryModule .add true false true 8 L r0 (fun _ => x) (fun _ => 15#4) (0 + L) = some (x - 1#8) ∧
      x - 1#8 ≠ BitVec.ofInt 8 (val true x + val false 15#4) := by
  constructor
  · have hL' : L ≠ 0 := by omega
    rw [binaryModule, if_pos hL', binaryOut]
    simp only [shiftState_latency L hL]
    rw [resOf_low (by decide)]
    have e : ∀ v : BitVec (rWidth .add 8 4), v.setWidth 8 = (v.setWidth (max 8 4)).setWidth 8 := by
      intro v; apply BitVec.eq_of_getLsbD_eq; intro i hi; simp [BitVec.getLsbD_setWidth, hi]
    rw [e, opRhs_arith .add (· + ·) rfl, setWidth_ofInt_le (by decide), BitVec.ofInt_add, BitVec.sub_eq_add_neg]
    congr 2
    simp [val]
  · intro h
    rw [BitVec.ofInt_add] at h
    have hx : BitVec.ofInt 8 (val true x) = x := by simp [val]
    rw [hx, BitVec.sub_eq_add_neg] at h
    have h' := (BitVec.add_right_inj x).mp h
    exact absurd h' (by decide)

/-- **C54 is false** for combinational units with a signed result: no legal Verilog is emitted for them. -/
theorem comb_signed_unit_ill_formed {w1 w2 : Nat} (op : VOp) (s1 s2 : Bool) (w3 : Nat) (r0 : Nat → BitVec (rWidth op w1 w2))
    (arg1 : Nat → BitVec w1) (arg2 : Nat → BitVec w2) (t : Nat) :
    binaryModule op s1 s2 true w3 0 r0 arg1 arg2 t = none := by
  simp [binaryModule, combBinary]

/-- **C54 (partial): unsigned combinational arithmetic.**  With latency 0 and all types unsigned the unit computes the
operation modulo 2^`w3`. -/
theorem arith_comb_unsigned_partial {w1 w2 : Nat} (op : VOp) (f : Int → Int → Int) (hf : arithSpec op = some f)
    (w3 : Nat) (h3 : w3 ≤ max w1 w2) (r0 : Nat → BitVec (rWidth op w1 w2)) (arg1 : Nat → BitVec w1)
    (arg2 : Nat → BitVec w2) (t : Nat) :
    binaryModule op false false false w3 0 r0 arg1 arg2 t =
      some (BitVec.ofInt w3 (f (arg1 t).toNat (arg2 t).toNat)) := by
  have hc : op.isComp = false := by cases op <;> simp_all [arithSpec, VOp.isComp]
  have hr : rWidth op w1 w2 = max w1 w2 := by simp [rWidth, hc]
  simp only [binaryModule, ne_eq, not_true_eq_false, if_false, combBinary, Bool.false_eq_true]
  rw [resOf_low (by omega)]
  have e : ∀ v : BitVec (rWidth op w1 w2), v.setWidth w3 = (v.setWidth (max w1 w2)).setWidth w3 := by
    intro v
    apply BitVec.eq_of_getLsbD_eq
    intro i hi
    have : i < max w1 w2 := by omega
    simp only [BitVec.getLsbD_setWidth, hi, this, decide_true, Bool.true_and]
  rw [e, opRhs_arith op f hf, setWidth_ofInt_le h3]
  rfl

end Verif.Hw
