import Verif.Ieee.Machine
import Verif.Dfcxx.CallProps
/-
C91, C06.  Floating-point constants (vars/constant.cpp:56-201, constant.cpp:16-29), and the operations of the pipeliner one by one.
-/
namespace Verif.Ieee
open Verif.Dfcxx

/-- `a <= b`. -/
theorem double_le (a b : Word) : double.le a b = true ↔ binary64.Less a.toNat b.toNat ∨ binary64.Equal a.toNat b.toNat := by
  rw [← double_lt, ← double_eq]; exact Bool.or_eq_true_iff

/-- `float` of a number of stages, or of a sum of latencies. -/
theorem single_ofNat (n : Nat) : binary32.Is (BitVec.toNat (single.ofNat n)) n false := by
  show binary32.Is (BitVec.ofNat 32 _).toNat _ _
  rw [toNat32 (binary32.enc_lt _)]; exact binary32.enc_num false n

theorem single_add (a b : BitVec 32) : binary32.IsSum a.toNat b.toNat (BitVec.toNat (single.add a b)) := by
  have e : BitVec.toNat (single.add a b) = binary32.add a.toNat b.toNat := toNat32 (binary32.enc_lt _)
  rw [e]; exact binary32.add_isSum _ _

theorem single_sub (a b : BitVec 32) : binary32.IsDifference a.toNat b.toNat (BitVec.toNat (single.sub a b)) := by
  have e : BitVec.toNat (single.sub a b) = binary32.sub a.toNat b.toNat := toNat32 (binary32.enc_lt _)
  rw [e]; exact binary32.sub_isDifference _ b.isLt

theorem single_div (a b : BitVec 32) : binary32.IsQuotient a.toNat b.toNat (BitVec.toNat (single.div a b)) := by
  have e : BitVec.toNat (single.div a b) = binary32.div a.toNat b.toNat := toNat32 (binary32.enc_lt _)
  rw [e]; exact binary32.div_isQuotient _ _

theorem single_gt (a b : BitVec 32) : single.gt a b = true ↔ binary32.Less b.toNat a.toNat := binary32.lt_iff _ _

/-- The tolerance: the `float` nearest to the `double` nearest to 1/1000000. -/
theorem single_eps : ∃ d, binary64.Is d (1 / 1000000) false ∧ binary32.Is (BitVec.toNat single.eps) (binary64.value d) false := by
  refine ⟨_, binary64.enc_num false (1 / 1000000), ?_⟩
  show binary32.Is (BitVec.ofNat 32 _).toNat _ _
  rw [toNat32 (binary32.enc_lt _)]; exact binary32.enc_num false _

/-! ### Folding -/

/-- A C++ `bool` converted to `double`: 1.0 or 0.0. -/
def IsDoubleBool (v : Word) (P : Prop) : Prop := (P → v = 0x3FF0000000000000#64) ∧ (¬ P → v = 0)

/-- What the standard says the comparisons of two numbers are, as a `double`. -/
structure FoldCompares (op : OpType) (x y v : Word) : Prop where
  lt : op = .LESS → IsDoubleBool v (binary64.Less x.toNat y.toNat)
  gt : op = .GREATER → IsDoubleBool v (binary64.Less y.toNat x.toNat)
  le : op = .LESSEQ → IsDoubleBool v (binary64.Less x.toNat y.toNat ∨ binary64.Equal x.toNat y.toNat)
  ge : op = .GREATEREQ → IsDoubleBool v (binary64.Less y.toNat x.toNat ∨ binary64.Equal y.toNat x.toNat)
  eq : op = .EQ → IsDoubleBool v (binary64.Equal x.toNat y.toNat)
  ne : op = .NEQ → IsDoubleBool v (¬ binary64.Equal x.toNat y.toNat)

theorem isDoubleBool_of {b : Bool} {P : Prop} (h : b = true ↔ P) : IsDoubleBool (ofBool .float b) P := by
  constructor
  · intro hP; rw [h.2 hP]; rfl
  · intro hP
    have : b = false := by cases b with
      | false => rfl
      | true => exact absurd (h.1 rfl) hP
    rw [this]; rfl

theorem fold_value {op : OpType} {e m : Nat} {x y v : Word} (h : foldBinary double op (.float e m) x y = some (.ok v)) :
    Computes op x y v ∧ FoldCompares op x y v := by
  constructor
  · constructor <;> rintro rfl <;> simp [foldBinary, evalBitwise, evalTyped, kindByType] at h <;> subst h
    · exact double_add x y
    · exact double_sub x y
    · exact double_mul x y
    · exact double_div x y
  · constructor <;> rintro rfl <;> simp only [foldBinary, evalBitwise, evalTyped, kindByType, Option.some.injEq, Except.ok.injEq] at h <;> subst h <;>
      refine isDoubleBool_of ?_
    · exact double_lt x y
    · exact double_lt y x
    · exact double_le x y
    · exact double_le y x
    · exact double_eq x y
    · rw [Bool.not_eq_true', ← double_eq]; simp

/-- **Constants.**  An operator on two constants, the left one of type `dfFloat`, returns a constant of the same type: arithmetic is rounded as IEEE 754 says,
a comparison is 1.0 or 0.0 (of that type too, unlike the comparison of streams). -/
theorem fold_floats {w w' : World} {op : OpType} {a b : Nat} {rs : List Nat} {e m : Nat} {tb : DFType} {x y : Word}
    (hist : Hist double Clean World.init w) (h : w.exec double (.bin op a b) = .ok (w', rs)) (ha : w.IsConst a (.float e m) x) (hb : w.IsConst b tb y) :
    ∃ n v, rs = [n] ∧ w'.IsConst n (.float e m) v ∧ Computes op x y v ∧ FoldCompares op x y v := by
  have hi := inv_hist (fun _ _ h => h) hist inv_init
  unfold World.exec at h
  split at h
  · cases h
  simp only [ha.val, hb.val, ha.ty] at h
  split at h
  · split at h
    · rename_i v hv
      obtain ⟨n, h1, rfl⟩ := one_ok h
      obtain ⟨c1, -⟩ := createOrUseConst_extends hi h1
      exact ⟨n, v, rfl, c1, fold_value hv⟩
    · cases h
    · cases h
  · cases h

theorem fold_negated {w w' : World} {a : Nat} {rs : List Nat} {e m : Nat} {x : Word}
    (hist : Hist double Clean World.init w) (h : w.exec double (.un .NEG a) = .ok (w', rs)) (ha : w.IsConst a (.float e m) x) :
    ∃ n v, rs = [n] ∧ w'.IsConst n (.float e m) v ∧ binary64.Opposite x.toNat v.toNat := by
  have hi := inv_hist (fun _ _ h => h) hist inv_init
  unfold World.exec at h
  split at h
  · cases h
  simp only [ha.val, ha.ty] at h
  split at h
  · split at h
    · rename_i v hv
      obtain ⟨n, h1, rfl⟩ := one_ok h
      obtain ⟨c1, -⟩ := createOrUseConst_extends hi h1
      refine ⟨n, v, rfl, c1, ?_⟩
      simp only [foldUnary, kindByType, evalNeg, Option.some.injEq, Except.ok.injEq] at hv
      subst hv
      exact double_neg x
    · cases h
    · cases h
  · cases h

end Verif.Ieee
