import Verif.Hw.StubsProps
/-
What the generated Verilog units compute exactly, for all combinations of widths and signedness (C68; C40 and C54 say when this is
what was meant).
-/
namespace Verif.Hw

/-- The result vector is the register read with the signedness of the result and extended or cut to its width. -/
theorem resOf_val {rw : Nat} (w3 : Nat) (s3 : Bool) (r : BitVec rw) :
    resOf w3 (if s3 then r.getLsbD (rw - 1) else false) r = BitVec.ofInt w3 (val s3 r) :=
  combCast_eq w3 s3 r

theorem val_setWidth_eq {n m : Nat} (h : n = m) (s : Bool) (x : BitVec n) : val s (x.setWidth m) = val s x := by
  subst h; rw [BitVec.setWidth_eq]

/-- Number of the register of an arithmetic unit. -/
theorem val_opRhs {w1 w2 : Nat} (op : VOp) (f : Int → Int → Int) (hf : arithSpec op = some f) (s1 s2 s3 : Bool)
    (a : BitVec w1) (b : BitVec w2) :
    val s3 (opRhs op s1 s2 s3 a b) = val s3 (BitVec.ofInt (max w1 w2) (f (val s3 a) (val s3 b))) := by
  have hc : op.isComp = false := by cases op <;> simp_all [arithSpec, VOp.isComp]
  have hr : rWidth op w1 w2 = max w1 w2 := by simp [rWidth, hc]
  rw [← opRhs_arith op f hf s1 s2 s3 a b, val_setWidth_eq hr]

/-- **Arithmetic units, exactly.**  Both operands are read with the signedness of the *result*, the operation is carried out modulo
2^`max w1 w2`, and the result, read with its signedness, is extended or cut to its width; for all widths and signednesses, whenever
the unit is legal Verilog (latency above 0, or unsigned result). -/
theorem arith_unit_exact {w1 w2 : Nat} (op : VOp) (f : Int → Int → Int) (hf : arithSpec op = some f) (s1 s2 s3 : Bool)
    (w3 L : Nat) (hL : 0 < L ∨ s3 = false) (r0 : Nat → BitVec (rWidth op w1 w2)) (arg1 : Nat → BitVec w1) (arg2 : Nat → BitVec w2)
    (t : Nat) : binaryModule op s1 s2 s3 w3 L r0 arg1 arg2 (t + L) =
      some (BitVec.ofInt w3 (val s3 (BitVec.ofInt (max w1 w2) (f (val s3 (arg1 t)) (val s3 (arg2 t)))))) := by
  rw [← val_opRhs op f hf s1 s2 s3]
  by_cases h0 : L = 0
  · subst h0
    have hs : s3 = false := by rcases hL with h | h; omega; exact h
    subst hs
    have := resOf_val w3 false (opRhs op s1 s2 false (arg1 t) (arg2 t))
    simp only [Bool.false_eq_true, if_false] at this
    simp [binaryModule, combBinary, this]
  · rw [binaryModule, if_pos h0, binaryOut]
    simp only [shiftState_latency L (by omega : 0 < L)]
    rw [resOf_val]

/-- A signed 8-bit value plus an unsigned 4-bit 15, as 8-bit signed: 15 is read as -1. -/
example : binaryModule .add true false true 8 1 (fun _ => 0) (fun _ => 7#8) (fun _ => 15#4) (0 + 1) = some 6#8 := by decide

/-- **Comparison units, exactly.**  Both operands are zero-extended to the wider width and compared as signed numbers only if both
types are signed; for all widths and signednesses of the operands and an unsigned result. -/
theorem compare_unit_exact {w1 w2 : Nat} (op : VOp) (f : Int → Int → Bool) (hf : compSpec op = some f) (s1 s2 : Bool)
    (w3 L : Nat) (hw1 : 0 < w1) (hw2 : 0 < w2) (r0 : Nat → BitVec (rWidth op w1 w2)) (arg1 : Nat → BitVec w1)
    (arg2 : Nat → BitVec w2) (t : Nat) :
    binaryModule op s1 s2 false w3 L r0 arg1 arg2 (t + L) =
      some (BitVec.ofNat w3 (f (val (s1 && s2) ((arg1 t).setWidth (max w1 w2)))
        (val (s1 && s2) ((arg2 t).setWidth (max w1 w2)))).toNat) := by
  have hc : op.isComp = true := by cases op <;> simp_all [compSpec, VOp.isComp]
  have hr : rWidth op w1 w2 = 1 := by simp [rWidth, hc]
  have hv : vcomp op (s1 && s2) ((arg1 t).setWidth (max w1 w2)) ((arg2 t).setWidth (max w1 w2)) =
      f (val (s1 && s2) ((arg1 t).setWidth (max w1 w2))) (val (s1 && s2) ((arg2 t).setWidth (max w1 w2))) := by
    generalize (arg1 t).setWidth (max w1 w2) = x
    generalize (arg2 t).setWidth (max w1 w2) = y
    cases (s1 && s2)
    · cases op <;> simp [compSpec] at hf <;> subst hf <;>
        simp [vcomp, val, BitVec.ule, BitVec.ult, ← BitVec.toNat_inj, bne, BEq.beq]
    · cases op <;> simp [compSpec] at hf <;> subst hf <;>
        simp [vcomp, val, BitVec.sle, BitVec.slt, ← BitVec.toInt_inj, bne, BEq.beq]
  have hres : resOf w3 false (opRhs op s1 s2 false (arg1 t) (arg2 t)) =
      BitVec.ofNat w3 (f (val (s1 && s2) ((arg1 t).setWidth (max w1 w2)))
        (val (s1 && s2) ((arg2 t).setWidth (max w1 w2)))).toNat := by
    rw [resOf, extract_low, setWidth_max_left, repCat_false_setWidth]
    unfold opRhs
    simp only [hc, if_true]
    rw [prepared_comp op hc _ _ _ hw1, prepared_comp op hc _ _ _ hw2, hv]
    apply BitVec.eq_of_toNat_eq
    rw [BitVec.toNat_setWidth, BitVec.toNat_setWidth, BitVec.toNat_ofNat, hr]
    cases f (val (s1 && s2) ((arg1 t).setWidth (max w1 w2))) (val (s1 && s2) ((arg2 t).setWidth (max w1 w2))) <;> simp
  rw [binaryModule]
  by_cases hL : L = 0
  · subst hL
    simp [combBinary, hres]
  · rw [if_pos hL, binaryOut]
    simp only [shiftState_latency L (by omega : 0 < L), Bool.false_eq_true, if_false, hres]

/-- `-1` at 4 bits is not less than 0 at 8 bits. -/
example : binaryModule .lt true true false 1 1 (fun _ => 0) (fun _ => 15#4) (fun _ => 0#8) (0 + 1) = some 0#1 := by decide

/-- **Casts, exactly.**  The operand is read with the signedness of the *result* type. -/
theorem cast_unit_exact {w1 : Nat} (w2 : Nat) (s2 : Bool) (L : Nat) (r0 : Nat → BitVec w1) (arg1 : Nat → BitVec w1) (t : Nat)
    (h : w2 ≤ w1 ∨ s2 = false ∨ L = 0) : castModule w2 s2 L r0 arg1 (t + L) = BitVec.ofInt w2 (val s2 (arg1 t)) :=
  cast_unit_partial w2 s2 s2 L r0 arg1 t (.inr rfl) h

example : castModule 16 true 0 (fun _ => 0#8) (fun _ => 0xFE#8) (3 + 0) = 0xFFFE#16 := by decide

end Verif.Hw
