import Verif.Flat.Ops
import Verif.Std.Model
/-
One rule per operator: the stream of the new variable in terms of the streams of its operands, as operations on bit vectors.
-/
namespace Verif.Flat
open Verif.Dfcxx Verif.Flow Verif.Kernels

/-! ### What the hardware of the operators computes, on bit vectors -/

theorem numAs_false (k n : Nat) : numAs false k n = n := by simp [numAs]

theorem numAs_toInt {k : Nat} (x : BitVec k) : numAs true k x.toNat = x.toInt := by
  unfold numAs BitVec.toInt
  have e : ((2 ^ k : Nat) : Int) = 2 ^ k := by push_cast; rfl
  by_cases h : 2 ^ k ≤ 2 * x.toNat
  · rw [if_pos ⟨rfl, h⟩, if_neg (by omega), e]
  · rw [if_neg (fun hh => h hh.2), if_pos (by omega)]

/-- The number a bit vector stands for. -/
def numOf {k : Nat} (s : Bool) (x : BitVec k) : Int := if s then x.toInt else x.toNat

theorem numAs_numOf {k : Nat} (s : Bool) (x : BitVec k) : numAs s k x.toNat = numOf s x := by
  cases s
  · rw [numAs_false]; rfl
  · exact numAs_toInt x

theorem ofInt_numOf {k : Nat} (s : Bool) (x : BitVec k) : BitVec.ofInt k (numOf s x) = x := by
  cases s
  · show BitVec.ofInt k ((x.toNat : Nat) : Int) = x
    rw [BitVec.ofInt_natCast, BitVec.ofNat_toNat, BitVec.setWidth_eq]
  · exact BitVec.ofInt_toInt

theorem pattern_ofInt {ty : DFType} {k : Nat} (hk : width ty = k) (z : Int) : pattern ty z = (BitVec.ofInt k z).toNat := by
  rw [BitVec.toNat_ofInt]
  unfold pattern
  rw [hk]
  congr 2

theorem number_numOf {ty : DFType} {k : Nat} {s : Bool} (hk : width ty = k) (hs : ty.isSigned = s) (x : BitVec k) :
    number ty x.toNat = numOf s x := by
  have : number ty x.toNat = numAs s k x.toNat := by
    unfold number numAs
    rw [hk, hs]
  rw [this, numAs_numOf]

theorem hwArith_same (f : Int → Int → Int) {k : Nat} {s : Bool} {ty ta tb : DFType} (hk : width ty = k) (hs : ty.isSigned = s)
    (ha : width ta = k) (hb : width tb = k) (x y : BitVec k) :
    hwArith f ty (ta, x.toNat) (tb, y.toNat) = (BitVec.ofInt k (f (numOf s x) (numOf s y))).toNat := by
  unfold hwArith
  simp only [ha, hb, hs, Nat.max_self, numAs_numOf]
  have : (f (numOf s x) (numOf s y) % 2 ^ k).toNat = (BitVec.ofInt k (f (numOf s x) (numOf s y))).toNat := by
    rw [BitVec.toNat_ofInt]; congr 2
  rw [this, numAs_numOf, pattern_ofInt hk, ofInt_numOf]

theorem ofInt_add {k : Nat} (s : Bool) (x y : BitVec k) : BitVec.ofInt k (numOf s x + numOf s y) = x + y := by
  rw [BitVec.ofInt_add, ofInt_numOf, ofInt_numOf]

theorem ofInt_mul {k : Nat} (s : Bool) (x y : BitVec k) : BitVec.ofInt k (numOf s x * numOf s y) = x * y := by
  rw [BitVec.ofInt_mul, ofInt_numOf, ofInt_numOf]

theorem ofInt_sub {k : Nat} (s : Bool) (x y : BitVec k) : BitVec.ofInt k (numOf s x - numOf s y) = x - y := by
  rw [Int.sub_eq_add_neg, BitVec.ofInt_add, ofInt_numOf, BitVec.ofInt_neg, ofInt_numOf, BitVec.sub_eq_add_neg]

section
variable {F : FloatOps} {C : Cfg} {N : List Nat} {w : World}

/-- Streams of unary and binary operators. -/
theorem hwVal_op1 {V : Nat → NodeV} {inp : Env} {n a : Nat} {t : Int} {x r : Nat} (hs : (V n).srcs = [a]) (ht : 0 ≤ t) (ha : HwVal V inp a t x)
    (hm : hwMeaning (V n).op (V n).data (V n).ty [((V a).ty, x)] = some r) : HwVal V inp n t r := by
  refine .op (fun _ => x) ht (fun s h => ?_) (by rw [hs]; exact hm)
  rw [hs, List.mem_singleton] at h
  rw [h]; exact ha

theorem hwVal_op2 {V : Nat → NodeV} {inp : Env} {n a b : Nat} {t : Int} {x y r : Nat} (hs : (V n).srcs = [a, b]) (ht : 0 ≤ t)
    (ha : HwVal V inp a t x) (hb : HwVal V inp b t y)
    (hm : hwMeaning (V n).op (V n).data (V n).ty [((V a).ty, x), ((V b).ty, y)] = some r) : HwVal V inp n t r := by
  have hy : (if b = a then x else y) = y := by
    split
    · rename_i h; subst h; exact hwVal_unique ha hb
    · rfl
  refine .op (fun s => if s = a then x else y) ht (fun s h => ?_) ?_
  · rw [hs] at h
    simp only [List.mem_cons, List.not_mem_nil, or_false] at h
    by_cases e : s = a
    · rw [if_pos e, e]; exact ha
    · rw [if_neg e, h.resolve_left e]; exact hb
  · rw [hs]
    simp only [List.map_cons, List.map_nil, if_true, hy]
    exact hm

theorem opd_one {a : Nat} (ha : Opd w a) : ∀ s ∈ [a], Opd w s := by simpa using ha

theorem opd_two {a b : Nat} (ha : Opd w a) (hb : Opd w b) : ∀ s ∈ [a, b], Opd w s := by
  simp only [List.mem_cons, List.not_mem_nil, or_false]
  rintro z (rfl | rfl)
  · exact ha
  · exact hb

/-- The call of a binary operator whose first operand is a stream. -/
theorem FGood.bin_exec (hg : FGood F C N w) {op : OpType} {a b : Nat} (hop : isBinaryOp op = true) (la : w.Live a) (lb : w.Live b)
    (hc : (w.view a).op ≠ .CONST) :
    w.exec F (.bin op a b) = retOne (w.newOp 0 op .none (streamResultType op (w.view a).ty) [a, b]) := by
  unfold World.exec
  rw [if_neg (exec_guard hg.inv (c := .bin op a b) (by simp [Cmd.vars, la, lb]))]
  have ca := hg.inv.st.const a (live_lt hg.inv.st la)
  simp only [if_pos hop, hg.kern la, hg.kern lb]
  cases hka : (w.node a).kind with
  | const v => exact absurd (ca.mpr (by rw [hka]; rfl)) hc
  | _ => rfl

/-- Addition, subtraction and multiplication of operands of one width: modulo 2^width. -/
theorem FGood.arith (hg : FGood F C N w) {k : Nat} {a b : Nat} {s sb : Bool} {d : Int} {x y : Env → Int → BitVec k} (ha : Str C w a s d x)
    (hb : SVal C w b sb d y) (hd : 0 ≤ d) (hx : C.exempt k = false) (hP : C.signed = true ∨ s = false) (op : OpType)
    (hop : op = .ADD ∨ op = .SUB ∨ op = .MUL) :
    FDoes F C (call1 F (.bin op a b)) w (fun _ => N)
      (fun n w' => Str C w' n s d (fun inp t => if op = .ADD then x inp t + y inp t else if op = .SUB then x inp t - y inp t else x inp t * y inp t)) := by
  have ta := ha.val.tyOK hg
  have wa := ha.val.wid
  have wb := hb.wid
  have hopd := opd_two ha.val.opd hb.opd
  have hcmp : op.isComparison = false := by rcases hop with rfl | rfl | rfl <;> rfl
  have hty : streamResultType op (w.view a).ty = (w.view a).ty := by unfold streamResultType; rw [hcmp]; rfl
  refine hg.op (c := .bin op a b) (op := op) (data := .none) (ty := (w.view a).ty) (l := [a, b]) ?_
    ⟨⟨trivial, trivial, trivial⟩, trivial⟩ (by rcases hop with rfl | rfl | rfl <;> simp) hopd ?_ wa ha.val.sgn _ ?_
  · rw [hg.bin_exec (by rcases hop with rfl | rfl | rfl <;> rfl) ha.val.live hb.live ha.notConst, hty]
  · intro V hV hs'
    refine fnode_new hV (by rcases hop with rfl | rfl | rfl <;> simp) ⟨by rw [hV]; exact ta, ?_⟩ hopd hs' (by simp) ?_ ?_
    · have : 0 < unitL C.signed op ∨ unsignedTy (V w.next).ty := by
        rcases hP with h | h
        · left; rcases hop with rfl | rfl | rfl <;> simp [unitL, h]
        · right; rw [hV]; show (w.view a).ty.isSigned = false; rw [ha.val.sgn]; exact h
      rw [show (V w.next).op = op by rw [hV]]
      rcases hop with rfl | rfl | rfl <;> exact this
    · exact (ha.val.node hg).sign
    · simp only [List.mem_cons, List.not_mem_nil, or_false]
      rintro z (rfl | rfl) h
      · rw [wa, hx] at h; cases h
      · rw [wb, hx] at h; cases h
  · intro V hV hs' inp hf hm t ht
    refine hwVal_op2 (srcs_reads hV) (by omega) (hm a (by simp) t _ (ha.val.val inp hf t ht)) (hm b (by simp) t _ (hb.val inp hf t ht)) ?_
    rw [hV, hs' a (by simp), hs' b (by simp)]
    rcases hop with rfl | rfl | rfl
    · simp only [hwMeaning, hwArith_same (· + ·) wa ha.val.sgn wa wb, ofInt_add]; rfl
    · simp only [hwMeaning, hwArith_same (· - ·) wa ha.val.sgn wa wb, ofInt_sub]; rfl
    · simp only [hwMeaning, hwArith_same (· * ·) wa ha.val.sgn wa wb, ofInt_mul]; rfl

theorem FGood.add (hg : FGood F C N w) {k : Nat} {a b : Nat} {s sb : Bool} {d : Int} {x y : Env → Int → BitVec k} (ha : Str C w a s d x)
    (hb : SVal C w b sb d y) (hd : 0 ≤ d) (hx : C.exempt k = false) (hP : C.signed = true ∨ s = false) :
    FDoes F C (call1 F (.bin .ADD a b)) w (fun _ => N) (fun n w' => Str C w' n s d (fun inp t => x inp t + y inp t)) :=
  hg.arith ha hb hd hx hP .ADD (by simp)

theorem FGood.sub (hg : FGood F C N w) {k : Nat} {a b : Nat} {s sb : Bool} {d : Int} {x y : Env → Int → BitVec k} (ha : Str C w a s d x)
    (hb : SVal C w b sb d y) (hd : 0 ≤ d) (hx : C.exempt k = false) (hP : C.signed = true ∨ s = false) :
    FDoes F C (call1 F (.bin .SUB a b)) w (fun _ => N) (fun n w' => Str C w' n s d (fun inp t => x inp t - y inp t)) :=
  hg.arith ha hb hd hx hP .SUB (by simp)

theorem FGood.mul (hg : FGood F C N w) {k : Nat} {a b : Nat} {s sb : Bool} {d : Int} {x y : Env → Int → BitVec k} (ha : Str C w a s d x)
    (hb : SVal C w b sb d y) (hd : 0 ≤ d) (hx : C.exempt k = false) (hP : C.signed = true ∨ s = false) :
    FDoes F C (call1 F (.bin .MUL a b)) w (fun _ => N) (fun n w' => Str C w' n s d (fun inp t => x inp t * y inp t)) :=
  hg.arith ha hb hd hx hP .MUL (by simp)

/-- What a comparison decides. -/
def cmp : OpType → Int → Int → Bool
  | .LESS, x, y => decide (x < y)
  | .LESSEQ, x, y => decide (x ≤ y)
  | .GREATER, x, y => decide (x > y)
  | .GREATEREQ, x, y => decide (x ≥ y)
  | .EQ, x, y => decide (x = y)
  | _, x, y => decide (x ≠ y)

theorem bool_ok : TypeOK buildBool := ⟨by decide, by decide, by intro e f h; cases h⟩

/-- Comparison of operands of one type. -/
theorem FGood.compare (hg : FGood F C N w) {k : Nat} {a b : Nat} {s : Bool} {d : Int} {x y : Env → Int → BitVec k} (ha : Str C w a s d x)
    (hb : SVal C w b s d y) (hd : 0 ≤ d) (hx : C.exempt k = false) (h1 : C.sg 1 = false) (op : OpType) (hop : op.isComparison = true) :
    FDoes F C (call1 F (.bin op a b)) w (fun _ => N)
      (fun n w' => Str C w' n false d (fun inp t => BitVec.ofBool (cmp op (numOf s (x inp t)) (numOf s (y inp t))))) := by
  have wa := ha.val.wid
  have wb := hb.wid
  have hopd := opd_two ha.val.opd hb.opd
  have hcases : op = .LESS ∨ op = .LESSEQ ∨ op = .GREATER ∨ op = .GREATEREQ ∨ op = .EQ ∨ op = .NEQ := by
    cases op <;> first | (exfalso; revert hop; decide) | simp
  have hty : streamResultType op (w.view a).ty = buildBool := by unfold streamResultType; rw [hop]; rfl
  refine hg.op (c := .bin op a b) (op := op) (data := .none) (ty := buildBool) (l := [a, b]) (k := 1) (s := false) ?_
    ⟨⟨trivial, trivial, trivial⟩, trivial⟩ (by rcases hcases with rfl | rfl | rfl | rfl | rfl | rfl <;> simp) hopd ?_ rfl rfl _ ?_
  · rw [hg.bin_exec (by rcases hcases with rfl | rfl | rfl | rfl | rfl | rfl <;> rfl) ha.val.live hb.live ha.notConst, hty]
  · intro V hV hs'
    refine fnode_new hV (by rcases hcases with rfl | rfl | rfl | rfl | rfl | rfl <;> simp)
      ⟨by rw [hV]; exact bool_ok, ?_⟩ hopd hs' (by simp) ?_ ?_
    · have : unsignedTy (V w.next).ty := by rw [hV]; rfl
      rw [show (V w.next).op = op by rw [hV]]
      rcases hcases with rfl | rfl | rfl | rfl | rfl | rfl <;> exact this
    · intro _; exact h1.symm
    · simp only [List.mem_cons, List.not_mem_nil, or_false]
      rintro z (rfl | rfl) h
      · rw [wa, hx] at h; cases h
      · rw [wb, hx] at h; cases h
  · intro V hV hs' inp hf hm t ht
    refine hwVal_op2 (srcs_reads hV) (by omega) (hm a (by simp) t _ (ha.val.val inp hf t ht)) (hm b (by simp) t _ (hb.val inp hf t ht)) ?_
    rw [hV, hs' a (by simp), hs' b (by simp)]
    have key : ∀ f : Int → Int → Bool, truth (hwComp f ((w.view a).ty, (x inp t).toNat) ((w.view b).ty, (y inp t).toNat)) =
        (BitVec.ofBool (f (numOf s (x inp t)) (numOf s (y inp t)))).toNat := by
      intro f
      unfold hwComp
      simp only [ha.val.sgn, hb.sgn, Bool.and_self, wa, wb, Nat.max_self, numAs_numOf]
      cases f (numOf s (x inp t)) (numOf s (y inp t)) <;> rfl
    rcases hcases with rfl | rfl | rfl | rfl | rfl | rfl <;> (simp only [hwMeaning, key]; rfl)

/-- The shared part of operators with one operand. -/
theorem fnode_unary {V : Nat → NodeV} {op : OpType} {data : NodeData} {ty : DFType} {a n : Nat} {k : Nat} {s : Bool} {d : Int}
    {x : Env → Int → BitVec k} (ha : SVal C w a s d x) (hV : V n = ⟨op, data, ty, .stream, "", reads [a]⟩) (he : ∀ s ∈ [a], V s = w.view s)
    (hop : op ≠ .NONE ∧ op ≠ .OFFSET ∧ op ≠ .IN ∧ op ≠ .OUT) (hprod : ProducedFor TypeOK V (unitL C.signed op) n)
    (hx : C.exempt k = true → C.exempt (width ty) = true) (hsg : C.exempt (width ty) = false → ty.isSigned = C.sg (width ty))
    (hdat : ∀ j, data ≠ .offset j := by simp) : FNode C V n := by
  refine fnode_new hV hop hprod (opd_one ha.opd) he (by simp) hsg ?_ hdat
  simp only [List.mem_cons, List.not_mem_nil, or_false]
  rintro z rfl h
  rw [ha.wid] at h
  exact ⟨rfl, hx h⟩

/-- Casts: the operand is read with the signedness of the result. -/
theorem FGood.cast (hg : FGood F C N w) {k : Nat} {a : Nat} {s : Bool} {d : Int} {x : Env → Int → BitVec k} (ha : SVal C w a s d x) (hd : 0 ≤ d)
    {ty : DFType} (ht : TypeOK ty) {k' : Nat} (hk : width ty = k') {s' : Bool} (hs : ty.isSigned = s')
    (hx : C.exempt k = true → C.exempt k' = true) (hsg : C.exempt k' = false → s' = C.sg k') :
    FDoes F C (call1 F (.cast a ty false)) w (fun _ => N)
      (fun n w' => Str C w' n s' d (fun inp t => BitVec.ofInt k' (numOf s' (x inp t)))) := by
  refine hg.op (c := .cast a ty false) (op := .CAST) (data := .none) (ty := ty) (l := [a]) ?_
    ⟨⟨trivial, trivial, trivial⟩, trivial⟩ (by simp) (opd_one ha.opd) ?_ hk hs _ ?_
  · unfold World.exec
    rw [if_neg (exec_guard hg.inv (c := .cast a ty false) (by simp [Cmd.vars, ha.live]))]
    simp only [hg.kern ha.live]
    rfl
  · intro V hV hs'
    refine fnode_unary ha hV hs' (by simp) ⟨by rw [hV]; exact ht, ?_⟩ (by rw [hk]; exact hx) (by rw [hk, hs]; exact hsg)
    rw [show (V w.next).op = .CAST by rw [hV]]
    intro z _
    right; right; rfl
  · intro V hV hs' inp hf hm t htd
    refine hwVal_op1 (srcs_reads hV) (by omega) (hm a (by simp) t _ (ha.val inp hf t htd)) ?_
    rw [hV, hs' a (by simp)]
    simp only [hwMeaning, hs, ha.wid, numAs_numOf, pattern_ofInt hk]

/-- The call of a shift of a stream. -/
theorem FGood.shift_exec (hg : FGood F C N w) {left : Bool} {a sh : Nat} (la : w.Live a) (hc : (w.view a).op ≠ .CONST) (hlt : sh < 256) :
    w.exec F (.shift left a sh) = retOne (w.newOp 0 (if left then .SHL else .SHR) (.bitShift sh) (w.view a).ty [a]) := by
  unfold World.exec
  rw [if_neg (exec_guard hg.inv (c := .shift left a sh) (by simp [Cmd.vars, la]))]
  have ca := hg.inv.st.const a (live_lt hg.inv.st la)
  have hu8 : u8 sh = sh := Nat.mod_eq_of_lt hlt
  simp only [hg.kern la, hu8]
  cases hka : (w.node a).kind with
  | const v => exact absurd (ca.mpr (by rw [hka]; rfl)) hc
  | _ => rfl

/-- A left shift.  A signed value must not overflow. -/
theorem FGood.shl (hg : FGood F C N w) {k : Nat} {a : Nat} {s : Bool} {d : Int} {x : Env → Int → BitVec k} (ha : Str C w a s d x) (hd : 0 ≤ d)
    {sh : Nat} (hlt : sh < 256)
    (hov : s = true → 2 ≤ k ∧ ∀ inp t, -(2 ^ (k - 1) : Int) ≤ (x inp t).toInt * 2 ^ sh ∧ (x inp t).toInt * 2 ^ sh < 2 ^ (k - 1)) :
    FDoes F C (call1 F (.shift true a sh)) w (fun _ => N) (fun n w' => Str C w' n s d (fun inp t => x inp t <<< sh)) := by
  have ta := ha.val.tyOK hg
  have hnode := ha.val.node hg
  refine hg.op (c := .shift true a sh) (op := .SHL) (data := .bitShift sh) (ty := (w.view a).ty) (l := [a]) ?_
    ⟨⟨trivial, trivial, trivial⟩, trivial⟩ (by simp) (opd_one ha.val.opd) ?_ ha.val.wid ha.val.sgn _ ?_
  · exact hg.shift_exec ha.val.live ha.notConst hlt
  · intro V hV hs'
    refine fnode_unary ha.val hV hs' (by simp) ⟨by rw [hV]; exact ta, ?_⟩ (by rw [ha.val.wid]; exact id) hnode.sign
    rw [show (V w.next).op = .SHL by rw [hV]]
    simp only
    rw [srcs_reads hV, hV]
    refine ⟨?_, ?_⟩
    · cases s with
      | false => exact .inl ha.val.sgn
      | true => right; show 2 ≤ width (w.view a).ty; rw [ha.val.wid]; exact (hov rfl).1
    · simp only [List.mem_cons, List.not_mem_nil, or_false]
      rintro z rfl
      rw [hs' z (by simp)]
      exact ⟨rfl, rfl⟩
  · intro V hV hs' inp hf hm t htd
    refine hwVal_op1 (srcs_reads hV) (by omega) (hm a (by simp) t _ (ha.val.val inp hf t htd)) ?_
    rw [hV, hs' a (by simp)]
    simp only [hwMeaning]
    congr 1
    cases s with
    | false =>
      unfold hwShl
      rw [if_neg (by rw [ha.val.sgn]; simp), ha.val.wid, BitVec.toNat_shiftLeft, Nat.shiftLeft_eq]
    | true =>
      have hw : width (w.view a).ty = k := ha.val.wid
      have hn := number_numOf hw ha.val.sgn (x inp t)
      rw [hwShl_signed (by rw [hw]; have := (hov rfl).1; omega) ha.val.sgn (by rw [hw]; exact (x inp t).isLt)
        (by rw [hn, hw]; exact ((hov rfl).2 inp t).1) (by rw [hn, hw]; exact ((hov rfl).2 inp t).2), hn, pattern_ofInt hw, BitVec.ofInt_mul,
        ofInt_numOf, BitVec.shiftLeft_eq_mul_twoPow]
      congr 2
      rw [show (2 ^ sh : Int) = ((2 ^ sh : Nat) : Int) by push_cast; rfl, BitVec.ofInt_natCast]
      apply BitVec.eq_of_toNat_eq
      rw [BitVec.toNat_ofNat, BitVec.toNat_twoPow]

/-- A right shift: arithmetic for signed types, logical for unsigned ones. -/
theorem FGood.shr (hg : FGood F C N w) {k : Nat} {a : Nat} {s : Bool} {d : Int} {x : Env → Int → BitVec k} (ha : Str C w a s d x) (hd : 0 ≤ d)
    {sh : Nat} (hlt : sh < 256) :
    FDoes F C (call1 F (.shift false a sh)) w (fun _ => N)
      (fun n w' => Str C w' n s d (fun inp t => if s then (x inp t).sshiftRight sh else x inp t >>> sh)) := by
  have ta := ha.val.tyOK hg
  have hnode := ha.val.node hg
  refine hg.op (c := .shift false a sh) (op := .SHR) (data := .bitShift sh) (ty := (w.view a).ty) (l := [a]) ?_
    ⟨⟨trivial, trivial, trivial⟩, trivial⟩ (by simp) (opd_one ha.val.opd) ?_ ha.val.wid ha.val.sgn _ ?_
  · exact hg.shift_exec ha.val.live ha.notConst hlt
  · intro V hV hs'
    refine fnode_unary ha.val hV hs' (by simp) ⟨by rw [hV]; exact ta, ?_⟩ (by rw [ha.val.wid]; exact id) hnode.sign
    rw [show (V w.next).op = .SHR by rw [hV]]
    simp only
    rw [srcs_reads hV, hV]
    simp only [List.mem_cons, List.not_mem_nil, or_false]
    rintro z rfl
    rw [hs' z (by simp)]
    exact ⟨rfl, rfl⟩
  · intro V hV hs' inp hf hm t htd
    refine hwVal_op1 (srcs_reads hV) (by omega) (hm a (by simp) t _ (ha.val.val inp hf t htd)) ?_
    rw [hV, hs' a (by simp)]
    simp only [hwMeaning]
    congr 1
    rw [number_numOf ha.val.wid ha.val.sgn, pattern_ofInt ha.val.wid]
    congr 1
    cases s with
    | false =>
      show BitVec.ofInt k (((x inp t).toNat : Int) / 2 ^ sh) = x inp t >>> sh
      rw [show ((x inp t).toNat : Int) / 2 ^ sh = (((x inp t).toNat / 2 ^ sh : Nat) : Int) by push_cast; rfl, BitVec.ofInt_natCast]
      apply BitVec.eq_of_toNat_eq
      rw [BitVec.toNat_ushiftRight, Nat.shiftRight_eq_div_pow, BitVec.toNat_ofNat,
        Nat.mod_eq_of_lt (Nat.lt_of_le_of_lt (Nat.div_le_self _ _) (x inp t).isLt)]
    | true =>
      show BitVec.ofInt k ((x inp t).toInt / 2 ^ sh) = (x inp t).sshiftRight sh
      rw [← BitVec.ofInt_toInt (x := (x inp t).sshiftRight sh), BitVec.toInt_sshiftRight, Int.shiftRight_eq_div_pow]
      push_cast
      rfl

/-- Bit ranges. -/
theorem FGood.bits (hg : FGood F C N w) {k : Nat} {a : Nat} {s : Bool} {d : Int} {x : Env → Int → BitVec k} (ha : SVal C w a s d x) (hd : 0 ≤ d)
    {hi lo m : Nat} (hm : m = hi - lo + 1) (h1 : lo ≤ hi) (h2 : hi < k) (hx : C.exempt k = true → C.exempt m = true)
    (hsg : C.exempt m = false → C.sg m = false) :
    FDoes F C (call1 F (.bits a hi lo)) w (fun _ => N) (fun n w' => Str C w' n false d (fun inp t => (x inp t).extractLsb' lo m)) := by
  have ta := ha.tyOK hg
  have hk : k < 65536 := by have := ta.2.1; rwa [ha.wid] at this
  have htok : TypeOK (.rawBits m) := ⟨by simp only [width]; omega, by simp only [width]; omega, by intro e f h; cases h⟩
  refine hg.op (c := .bits a hi lo) (op := .BITS) (data := .bitsRange hi lo) (ty := .rawBits m) (l := [a]) (k := m) (s := false) ?_
    ⟨⟨trivial, trivial, trivial⟩, trivial⟩ (by simp) (opd_one ha.opd) ?_ rfl rfl _ ?_
  · unfold World.exec
    rw [if_neg (exec_guard hg.inv (c := .bits a hi lo) (by simp [Cmd.vars, ha.live]))]
    have hb : bitsRange (u16 hi) (u16 lo) (w.node a).ty.totalBits = some (hi, lo, .rawBits m) := by
      rw [totalBits_width (show TypeOK (w.node a).ty from ta), show width (w.node a).ty = k from ha.wid]
      have e1 : u16 hi = hi := Nat.mod_eq_of_lt (by omega)
      have e2 : u16 lo = lo := Nat.mod_eq_of_lt (by omega)
      rw [e1, e2]
      unfold bitsRange buildRawBits u16
      have e3 : (if hi > lo then hi else lo) = hi := by split <;> omega
      have e4 : (if hi > lo then lo else hi) = lo := by split <;> omega
      simp only [e3, e4]
      rw [if_neg (by omega), ← hm, Nat.mod_eq_of_lt (by omega)]
    simp only [hb, hg.kern ha.live]
  · intro V hV hs'
    refine fnode_unary ha hV hs' (by simp) ⟨by rw [hV]; exact htok, ?_⟩ hx (fun h => (hsg h).symm)
    rw [show (V w.next).op = .BITS by rw [hV]]
    simp only
    rw [srcs_reads hV]
    intro l r h
    rw [hV] at h
    cases h
    refine ⟨h1, by rw [hV]; rfl, by rw [hV]; exact hm, ?_⟩
    simp only [List.mem_cons, List.not_mem_nil, or_false]
    rintro z rfl
    rw [hs' z (by simp), ha.wid]; exact h2
  · intro V hV hs' inp hf hmm t htd
    refine hwVal_op1 (srcs_reads hV) (by omega) (hmm a (by simp) t _ (ha.val inp hf t htd)) ?_
    rw [hV]
    simp only [hwMeaning]
    rw [BitVec.extractLsb'_toNat, Nat.shiftRight_eq_div_pow, hm]

/-- Concatenation. -/
theorem FGood.cat (hg : FGood F C N w) {i j : Nat} {a b : Nat} {s : Bool} {d : Int} {x : Env → Int → BitVec i} {y : Env → Int → BitVec j}
    (ha : SVal C w a s d x) (hb : SVal C w b s d y) (hd : 0 ≤ d) (hsz : i + j < 65536) (hxi : C.exempt i = false) (hxj : C.exempt j = false)
    (hsg : C.exempt (i + j) = false → C.sg (i + j) = false) :
    FDoes F C (call1 F (.cat a b)) w (fun _ => N) (fun n w' => Str C w' n false d (fun inp t => x inp t ++ y inp t)) := by
  have ta := ha.tyOK hg
  have tb := hb.tyOK hg
  have hty : catType (w.node a).ty (w.node b).ty = .rawBits (i + j) := by
    unfold catType buildRawBits u16
    rw [totalBits_width (show TypeOK (w.node a).ty from ta), totalBits_width (show TypeOK (w.node b).ty from tb),
      show width (w.node a).ty = i from ha.wid, show width (w.node b).ty = j from hb.wid, Nat.mod_mod, Nat.mod_eq_of_lt hsz]
  have hipos : 0 < i := by have := ta.1; rwa [ha.wid] at this
  have htok : TypeOK (.rawBits (i + j)) := ⟨by simp only [width]; omega, hsz, by intro e f h; cases h⟩
  have hopd := opd_two ha.opd hb.opd
  refine hg.op (c := .cat a b) (op := .CAT) (data := .none) (ty := .rawBits (i + j)) (l := [a, b]) (k := i + j) (s := false) ?_
    ⟨⟨trivial, trivial, trivial⟩, trivial⟩ (by simp) hopd ?_ rfl rfl _ ?_
  · unfold World.exec
    rw [if_neg (exec_guard hg.inv (c := .cat a b) (by simp [Cmd.vars, ha.live, hb.live]))]
    simp only [hg.kern ha.live, hty]
  · intro V hV hs'
    refine fnode_new hV (by simp) ⟨by rw [hV]; exact htok, ?_⟩ hopd hs' (by simp) (fun h => (hsg h).symm) ?_
    · rw [show (V w.next).op = .CAT by rw [hV]]
      simp only
      refine ⟨by rw [hV]; rfl, ?_⟩
      rw [srcs_reads hV]
      intro a' b' h
      cases h
      rw [hs' a (by simp), hs' b (by simp), hV, ha.wid, hb.wid, ha.sgn, hb.sgn]
      exact ⟨rfl, rfl⟩
    · simp only [List.mem_cons, List.not_mem_nil, or_false]
      rintro z (rfl | rfl) h
      · rw [ha.wid, hxi] at h; cases h
      · rw [hb.wid, hxj] at h; cases h
  · intro V hV hs' inp hf hm t htd
    refine hwVal_op2 (srcs_reads hV) (by omega) (hm a (by simp) t _ (ha.val inp hf t htd)) (hm b (by simp) t _ (hb.val inp hf t htd)) ?_
    rw [hV, hs' b (by simp)]
    simp only [hwMeaning]
    rw [hb.wid, BitVec.toNat_append, ← Nat.shiftLeft_add_eq_or_of_lt (y inp t).isLt, Nat.shiftLeft_eq]

/-- Multiplexers whose select is never out of range. -/
theorem FGood.mux (hg : FGood F C N w) {k m : Nat} {c : Nat} {sc s : Bool} {d : Int} {x : Env → Int → BitVec k} (hc : Str C w c sc d x) (hd : 0 ≤ d)
    {as : List Nat} {ys : List (Env → Int → BitVec m)} (ha : List.Forall₂ (fun a y => SVal C w a s d y) as ys)
    (hlen : ∀ inp, Fits C.ins inp → ∀ t, d ≤ t → (x inp t).toNat < as.length) (hne : as ≠ [])
    (hfew : as.length ≤ 127 ∨ ∀ a ∈ as, (w.view a).op = .CONST) (hx : C.exempt k = false) (hx' : C.exempt m = false) :
    FDoes F C (call1 F (.mux c as)) w (fun _ => N) (fun n w' => Str C w' n s d (fun inp t => Std.mux (x inp t) (ys.map (· inp t)))) := by
  have hall : ∀ a ∈ as, ∃ y, SVal C w a s d (k := m) y := by
    intro a hm
    obtain ⟨i, hi1, hi2⟩ := List.mem_iff_getElem.mp hm
    have := List.Forall₂.get ha (by exact hi1) (by rw [← ha.length_eq]; exact hi1)
    exact ⟨_, by rw [← hi2]; exact this⟩
  cases as with
  | nil => exact absurd rfl hne
  | cons a0 as =>
    obtain ⟨y0, h0⟩ := hall a0 (by simp)
    have t0 := h0.tyOK hg
    have hopd : ∀ a ∈ c :: a0 :: as, Opd w a := by
      intro a hm
      rcases List.mem_cons.mp hm with rfl | hm
      · exact hc.val.opd
      · obtain ⟨y, hy⟩ := hall a hm; exact hy.opd
    refine hg.op (c := .mux c (a0 :: as)) (op := .MUX) (data := .muxId 0) (ty := (w.view a0).ty) (l := c :: a0 :: as) ?_
      ⟨⟨trivial, trivial, trivial⟩, trivial⟩ (by simp) hopd ?_ h0.wid h0.sgn _ ?_
    · unfold World.exec
      rw [if_neg (exec_guard hg.inv (c := .mux c (a0 :: as)) fun a hm => (hopd a hm).live)]
      simp only [hg.cur]
      rfl
    · intro V hV hs'
      have hsr := srcs_reads hV
      refine ⟨⟨by rw [hV]; exact t0, ?_⟩, by rw [hV]; simp, ?_, ?_, by rw [hV]; simp, by rw [hV]; simp, by rw [hV]; simp, by rw [hV]; simp,
        by rw [hV]; exact (h0.node hg).sign, ?_⟩
      · rw [show (V w.next).op = .MUX by rw [hV]]
        simp only
        rw [hsr]
        intro c' alts h
        cases h
        rw [hs' c (by simp), hV]
        refine ⟨hc.kind, by simp, fun a hm => ?_⟩
        obtain ⟨y, hy⟩ := hall a hm
        rw [hs' a (by simp [hm])]
        exact ⟨hy.wid.trans h0.wid.symm, hy.sgn.trans h0.sgn.symm⟩
      · rw [hsr]
        intro z hm
        rw [hs' z hm]
        exact ⟨(hopd z hm).notOut, (hopd z hm).notNone⟩
      · rw [hsr]
        rcases hfew with h | h
        · left; simp only [List.length_cons] at h ⊢; omega
        · right
          intro z hm
          rw [hs' z (by simp [show z ∈ a0 :: as from hm])]
          exact h z hm
      · rw [hsr]
        intro z hm h
        exfalso
        rw [hs' z hm] at h
        rcases List.mem_cons.mp hm with rfl | hm
        · rw [hc.val.wid, hx] at h; cases h
        · obtain ⟨y, hy⟩ := hall z hm
          rw [hy.wid, hx'] at h; cases h
    · intro V hV hs' inp hf hm t htd
      have hlt := hlen inp hf t htd
      have hlt' : (x inp t).toNat < ys.length := by rw [← ha.length_eq]; exact hlt
      have h2 : SVal C w (a0 :: as)[(x inp t).toNat] s d ys[(x inp t).toNat] := List.Forall₂.get ha hlt hlt'
      have e : Std.mux (x inp t) (ys.map (· inp t)) = ys[(x inp t).toNat] inp t := by
        unfold Std.mux
        rw [List.getD_eq_getElem?_getD, List.getElem?_map, List.getElem?_eq_getElem hlt']
        rfl
      rw [e]
      exact .mux (by rw [hV]) (srcs_reads hV) (by omega) (hm c (by simp) t _ (hc.val.val inp hf t htd)) (List.getElem?_eq_getElem hlt)
        (hm _ (List.mem_cons_of_mem _ (List.getElem_mem _)) t _ (h2.val inp hf t htd))

/-- Offsets shift the stream. -/
theorem FGood.offset (hg : FGood F C N w) {k : Nat} {a : Nat} {s : Bool} {d : Int} {x : Env → Int → BitVec k} (ha : Str C w a s d x)
    (hf : C.offs = true) {o : Int} (ho : -(2^31 : Int) ≤ o ∧ o < 2^31) :
    FDoes F C (call1 F (.offset a o)) w (fun _ => N) (fun n w' => Str C w' n s (d - o) (fun inp t => x inp (t + o))) := by
  have ta := ha.val.tyOK hg
  have hnode := ha.val.node hg
  refine hg.op (c := .offset a o) (op := .OFFSET) (data := .offset o) (ty := (w.view a).ty) (l := [a]) ?_
    ⟨⟨trivial, trivial, trivial⟩, trivial⟩ (by simp) (opd_one ha.val.opd) ?_ ha.val.wid ha.val.sgn _ ?_
  · unfold World.exec
    rw [if_neg (exec_guard hg.inv (c := .offset a o) (by simp [Cmd.vars, ha.val.live]))]
    simp only
    rw [if_pos (show (w.node a).kind = .stream from ha.kind), hg.cur]
    rfl
  · intro V hV hs'
    have hsr := srcs_reads hV
    refine ⟨⟨by rw [hV]; exact ta, ?_⟩, by rw [hV]; simp, ?_, .inl (by rw [hsr]; simp), by rw [hV]; simp, ?_, ?_, by rw [hV]; simp,
      by rw [hV]; exact hnode.sign, ?_⟩
    · rw [show (V w.next).op = .OFFSET by rw [hV]]
      simp only
      rw [hsr]
      simp only [List.mem_cons, List.not_mem_nil, or_false]
      rintro z rfl
      rw [hs' z (by simp)]; exact ha.kind
    · rw [hsr]
      simp only [List.mem_cons, List.not_mem_nil, or_false]
      rintro z rfl
      rw [hs' z (by simp)]; exact ⟨ha.val.notOut, ha.val.notNone⟩
    · rw [hV]; intro j hj; cases hj; exact ho
    · rw [hsr]
      simp only [List.mem_cons, List.not_mem_nil, or_false]
      refine fun _ => ⟨hf, ?_⟩
      rintro z rfl
      rw [hs' z (by simp), hV]
    · rw [hsr]
      simp only [List.mem_cons, List.not_mem_nil, or_false]
      rintro z rfl h
      rw [hs' z (by simp)] at h
      rw [hV]
      exact ⟨rfl, h⟩
  · intro V hV hs' inp hf hm t htd
    exact .offset (by rw [hV]) (by rw [hV]) (srcs_reads hV) (hm a (by simp) (t + o) _ (ha.val.val inp hf (t + o) (by omega)))

/-- Bitwise operators on unsigned operands of one width. -/
theorem FGood.xor (hg : FGood F C N w) {k : Nat} {a b : Nat} {d : Int} {x y : Env → Int → BitVec k} (ha : Str C w a false d x)
    (hb : SVal C w b false d y) (hd : 0 ≤ d) (hx : C.exempt k = false) :
    FDoes F C (call1 F (.bin .XOR a b)) w (fun _ => N) (fun n w' => Str C w' n false d (fun inp t => x inp t ^^^ y inp t)) := by
  have ta := ha.val.tyOK hg
  have wa := ha.val.wid
  have wb := hb.wid
  have hopd := opd_two ha.val.opd hb.opd
  refine hg.op (c := .bin .XOR a b) (op := .XOR) (data := .none) (ty := (w.view a).ty) (l := [a, b]) ?_
    ⟨⟨trivial, trivial, trivial⟩, trivial⟩ (by simp) hopd ?_ wa ha.val.sgn _ ?_
  · exact hg.bin_exec rfl ha.val.live hb.live ha.notConst
  · intro V hV hs'
    refine fnode_new hV (by simp) ⟨by rw [hV]; exact ta, ?_⟩ hopd hs' (by simp) (ha.val.node hg).sign ?_
    · rw [show (V w.next).op = .XOR by rw [hV]]
      simp only
      refine ⟨by rw [hV]; exact ha.val.sgn, ?_⟩
      rw [srcs_reads hV]
      intro a' b' h
      cases h
      rw [hs' a (by simp), hs' b (by simp), hV]
      exact ⟨ha.val.sgn, hb.sgn, by show width (w.view a).ty = _; rw [wa, wb, Nat.max_self]⟩
    · simp only [List.mem_cons, List.not_mem_nil, or_false]
      rintro z (rfl | rfl) h
      · rw [wa, hx] at h; cases h
      · rw [wb, hx] at h; cases h
  · intro V hV hs' inp hf hm t ht
    refine hwVal_op2 (srcs_reads hV) (by omega) (hm a (by simp) t _ (ha.val.val inp hf t ht)) (hm b (by simp) t _ (hb.val inp hf t ht)) ?_
    rw [hV]
    simp only [hwMeaning, BitVec.toNat_xor]

end

end Verif.Flat
