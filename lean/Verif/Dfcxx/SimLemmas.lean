import Verif.Dfcxx.SimSpec
import Mathlib.Tactic.Tauto
import Mathlib.Tactic.NormNum
namespace Verif.Dfcxx

theorem sres_ok {r : Int} {v : Word} : sres r = .ok v ↔ IsSigned v r := by
  unfold sres IsSigned
  constructor
  · intro h
    split at h
    · rename_i hr
      cases h
      rw [BitVec.toInt_ofInt, Int.bmod_eq_of_le] <;> norm_num at * <;> omega
    · cases h
  · rintro rfl
    have h1 := BitVec.toInt_lt (x := v)
    have h2 := BitVec.le_toInt (x := v)
    rw [if_pos ⟨by norm_num at *; omega, by norm_num at *; omega⟩, BitVec.ofInt_toInt]

theorem isBool_iff {v : Word} {p : Prop} [Decidable p] : IsBool v p ↔ v = ofBool .uint (decide p) := by
  unfold IsBool
  by_cases hp : p <;> simp [hp, ofBool]

theorem isUnsigned_iff {v w : Word} {r : Int} (h : (w.toNat : Int) = r % 2^64) :
    IsUnsigned v r ↔ v = w := by
  unfold IsUnsigned
  rw [← h]
  constructor
  · intro h; exact BitVec.eq_of_toNat_eq (by exact_mod_cast h)
  · rintro rfl; rfl

theorem two_args {l : List Word} (h : 2 ≤ l.length) : ∃ a b t, l = a :: b :: t := by
  match l, h with
  | a :: b :: t, _ => exact ⟨a, b, t, rfl⟩

theorem one_arg {l : List Word} (h : 1 ≤ l.length) : ∃ a t, l = a :: t := by
  match l, h with
  | a :: t, _ => exact ⟨a, t, rfl⟩

theorem ofExcept_val {e : Except Fault Word} {v : Word} : R.ofExcept e = .val v ↔ e = .ok v := by
  cases e <;> simp [R.ofExcept]

end Verif.Dfcxx
namespace Verif.Dfcxx

/-- An all-ones select makes `muxedValue + 1` wrap to 0 (simulator.cpp:72). -/
def MuxWraps (n : NodeV) (args : List Word) : Prop :=
  n.op = .MUX ∧ args.head? = some (BitVec.allOnes 64)

theorem add_one_toNat {s : Word} (h : s ≠ BitVec.allOnes 64) : (s + 1).toNat = s.toNat + 1 := by
  have h1 : s.toNat ≠ 2^64 - 1 := by
    intro hh; apply h; apply BitVec.eq_of_toNat_eq; simpa using hh
  have h2 := s.isLt
  rw [BitVec.toNat_add]
  simp
  omega

/-- The local step of the simulator is the meaning of the node. -/
theorem processOp_iff_means (F : FloatOps) (n : NodeV) (sh : n.Shape) (inp : TickIn) (args : List Word)
    (hlen : args.length = n.ins.length) (hw : ¬ MuxWraps n args) (v : Word) :
    processOp F n inp args = .val v ↔ Means F n inp args v := by
  have hu := sh.unary
  have hb := sh.binary
  have hc := sh.comp
  have hm := sh.mux
  have hk := sh.const
  have hs := sh.shift
  rw [← hlen] at hu hb hm
  rcases n with ⟨op, data, ty, kind, name, ins⟩
  simp only at *
  have bin : ∀ (_ : 2 ≤ args.length), ∃ a b t, args = a :: b :: t := two_args
  have un : ∀ (_ : 1 ≤ args.length), ∃ a t, args = a :: t := one_arg
  cases op
  case IN => simp only [processOp, Means]; cases inp name <;> simp [R.ofExcept]
  case CONST =>
    simp only [processOp, Means]
    cases kind <;> simp
  case OUT =>
    obtain ⟨a, t, rfl⟩ := un (hu (by simp))
    simp [processOp, Means, eq_comm]
  case MUX =>
    obtain ⟨rfl, h1⟩ := hm rfl
    obtain ⟨sel, t, rfl⟩ := un h1
    have hsel : sel ≠ BitVec.allOnes 64 := by
      intro h; exact hw ⟨rfl, by simp [h]⟩
    simp only [processOp, Means, List.getElem?_cons_zero, add_one_toNat hsel, List.getElem?_cons_succ]
    cases hq : t[sel.toNat]? with
    | none =>
      simp only [reduceCtorEq, true_and, false_iff, not_exists, not_and]
      rintro s' a' h
      obtain ⟨rfl, rfl⟩ := List.cons.inj h
      simp [hq]
    | some x =>
      simp only [R.val.injEq, true_and]
      constructor
      · rintro rfl; exact ⟨sel, t, rfl, hq⟩
      · rintro ⟨s', a', h, h'⟩
        obtain ⟨rfl, rfl⟩ := List.cons.inj h
        rw [hq] at h'; simpa using h'
  case ADD =>
    obtain ⟨a, b, t, rfl⟩ := bin (hb (by simp))
    rcases ty with ⟨sg, _, _⟩ | _ | _
    · cases sg
      · simp only [processOp, Means, simKind, evalTyped, List.getElem?_cons_zero, List.getElem?_cons_succ,
          ofExcept_val, Except.ok.injEq]
        rw [isUnsigned_iff (w := a + b) (by rw [BitVec.toNat_add]; norm_cast), eq_comm]
      · simp [processOp, Means, simKind, evalTyped, ofExcept_val, sres_ok]
    · simp [processOp, Means, simKind, evalTyped, R.ofExcept, eq_comm]
    · simp [processOp, Means, simKind]
  case SUB =>
    obtain ⟨a, b, t, rfl⟩ := bin (hb (by simp))
    rcases ty with ⟨sg, _, _⟩ | _ | _
    · cases sg
      · simp only [processOp, Means, simKind, evalTyped, List.getElem?_cons_zero, List.getElem?_cons_succ,
          ofExcept_val, Except.ok.injEq]
        rw [isUnsigned_iff (w := a - b) ?_, eq_comm]
        rw [BitVec.toNat_sub]
        have h1 := a.isLt; have h2 := b.isLt
        omega
      · simp [processOp, Means, simKind, evalTyped, ofExcept_val, sres_ok]
    · simp [processOp, Means, simKind, evalTyped, R.ofExcept, eq_comm]
    · simp [processOp, Means, simKind]
  case MUL =>
    obtain ⟨a, b, t, rfl⟩ := bin (hb (by simp))
    rcases ty with ⟨sg, _, _⟩ | _ | _
    · cases sg
      · simp only [processOp, Means, simKind, evalTyped, List.getElem?_cons_zero, List.getElem?_cons_succ,
          ofExcept_val, Except.ok.injEq]
        rw [isUnsigned_iff (w := a * b) (by rw [BitVec.toNat_mul]; norm_cast), eq_comm]
      · simp [processOp, Means, simKind, evalTyped, ofExcept_val, sres_ok]
    · simp [processOp, Means, simKind, evalTyped, R.ofExcept, eq_comm]
    · simp [processOp, Means, simKind]
  case DIV =>
    obtain ⟨a, b, t, rfl⟩ := bin (hb (by simp))
    rcases ty with ⟨sg, _, _⟩ | _ | _
    · cases sg
      · simp only [processOp, Means, simKind, evalTyped, List.getElem?_cons_zero, List.getElem?_cons_succ,
          ofExcept_val]
        by_cases hb0 : b = 0
        · simp [hb0]
        · simp only [hb0, if_false, Except.ok.injEq, ne_eq, not_false_eq_true, true_and]
          rw [← BitVec.toNat_udiv, eq_comm]
          exact ⟨fun h => by rw [h], fun h => BitVec.eq_of_toNat_eq h⟩
      · simp only [processOp, Means, simKind, evalTyped, List.getElem?_cons_zero, List.getElem?_cons_succ,
          ofExcept_val]
        by_cases hb0 : b = 0
        · simp [hb0]
        · simp only [hb0, if_false, sres_ok, ne_eq, not_false_eq_true, true_and]
    · simp [processOp, Means, simKind, evalTyped, R.ofExcept, eq_comm]
    · simp [processOp, Means, simKind]
  case AND =>
    obtain ⟨a, b, t, rfl⟩ := bin (hb (by simp))
    simp only [processOp, Means, evalBitwise, List.getElem?_cons_zero, List.getElem?_cons_succ, R.val.injEq]
    constructor
    · rintro rfl i; simp
    · intro h; apply BitVec.eq_of_getLsbD_eq; intro i _; rw [h]; simp
  case OR =>
    obtain ⟨a, b, t, rfl⟩ := bin (hb (by simp))
    simp only [processOp, Means, evalBitwise, List.getElem?_cons_zero, List.getElem?_cons_succ, R.val.injEq]
    constructor
    · rintro rfl i; simp
    · intro h; apply BitVec.eq_of_getLsbD_eq; intro i _; rw [h]; simp
  case XOR =>
    obtain ⟨a, b, t, rfl⟩ := bin (hb (by simp))
    simp only [processOp, Means, evalBitwise, List.getElem?_cons_zero, List.getElem?_cons_succ, R.val.injEq]
    constructor
    · rintro rfl i; simp
    · intro h; apply BitVec.eq_of_getLsbD_eq; intro i _; rw [h]; simp
  case NOT =>
    obtain ⟨a, t, rfl⟩ := un (hu (by simp))
    simp only [processOp, Means, List.getElem?_cons_zero, R.val.injEq]
    constructor
    · rintro rfl i hi; simp [hi]
    · intro h; apply BitVec.eq_of_getLsbD_eq; intro i hi; rw [h i hi]; simp [hi]
  case NEG =>
    obtain ⟨a, t, rfl⟩ := un (hu (by simp))
    rcases ty with ⟨sg, _, _⟩ | _ | _
    · cases sg
      · simp only [processOp, Means, simKind, evalNeg, List.getElem?_cons_zero, ofExcept_val, Except.ok.injEq]
        rw [isUnsigned_iff (w := -a) ?_, eq_comm]
        rw [BitVec.toNat_neg]
        have h1 := a.isLt
        omega
      · simp [processOp, Means, simKind, evalNeg, ofExcept_val, sres_ok]
    · simp [processOp, Means, simKind, evalNeg, R.ofExcept, eq_comm]
    · simp [processOp, Means, simKind]
  case SHL =>
    obtain ⟨a, t, rfl⟩ := un (hu (by simp))
    obtain ⟨k, rfl⟩ := hs (by simp)
    simp only [processOp, Means, List.getElem?_cons_zero, ofExcept_val, evalShl, NodeData.bitShift.injEq,
      exists_eq_left']
    by_cases hk64 : k < 64
    · simp only [hk64, if_true, Except.ok.injEq, true_and]
      have : (a <<< k).toNat = a.toNat * 2^k % 2^64 := by simp [Nat.shiftLeft_eq]
      rw [← this, eq_comm]
      exact ⟨fun h => by rw [h], fun h => BitVec.eq_of_toNat_eq h⟩
    · simp [hk64]
  case SHR =>
    obtain ⟨a, t, rfl⟩ := un (hu (by simp))
    obtain ⟨k, rfl⟩ := hs (by simp)
    simp only [processOp, Means, List.getElem?_cons_zero, ofExcept_val, evalShr, NodeData.bitShift.injEq,
      exists_eq_left']
    by_cases hk64 : k < 64
    · simp only [hk64, if_true, Except.ok.injEq, true_and]
      have : (a >>> k).toNat = a.toNat / 2^k := by simp [Nat.shiftRight_eq_div_pow]
      rw [← this, eq_comm]
      exact ⟨fun h => by rw [h], fun h => BitVec.eq_of_toNat_eq h⟩
    · simp [hk64]
  case LESS | LESSEQ | GREATER | GREATEREQ | EQ | NEQ =>
    obtain ⟨a, b, t, rfl⟩ := bin (hb (by simp))
    obtain rfl := hc rfl
    simp only [processOp, Means, simKind, evalTyped, buildBool, buildFixed, List.getElem?_cons_zero,
      List.getElem?_cons_succ, ofExcept_val, Except.ok.injEq]
    rw [isBool_iff, eq_comm]
    all_goals
      by_cases h : a = b
      · simp [h, bne]
      · have h' : (a == b) = false := by simpa using h
        simp [h, h', bne]
  all_goals simp [processOp, Means]

/-- Unsupported nodes are rejected, and only those. -/
theorem processOp_unsupported_iff (F : FloatOps) (n : NodeV) (inp : TickIn) (args : List Word) :
    processOp F n inp args = .unsupported ↔ Unsupported n := by
  rcases n with ⟨op, data, ty, kind, name, ins⟩
  have oe : ∀ e : Except Fault Word, R.ofExcept e ≠ .unsupported := by intro e; cases e <;> simp [R.ofExcept]
  cases op <;> simp only [processOp, Unsupported, evalTyped, evalBitwise] <;>
    (try (rcases ty with ⟨sg, _, _⟩ | _ | _ <;> (try cases sg) <;> simp only [simKind, DFType.isRawBits])) <;>
    (repeat' split) <;> simp_all

end Verif.Dfcxx
