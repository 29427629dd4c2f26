import Verif.Dfcxx.SimProps
/- Properties C06 (constant folding), C16 (width-w arithmetic) and C17 (comparisons). -/
namespace Verif.Dfcxx

/-- The node a binary operator builds on two streams whose left operand has type `ty`. -/
def binNode (op : OpType) (ty : DFType) : NodeV :=
  { op := op, data := .none, ty := streamResultType op ty, kind := .stream, name := "",
    ins := [(0, false), (1, false)] }

/-! ### C06: folding versus evaluation -/

/-- **C06 (arithmetic, bitwise).**  For + - * / at fixed or float type and & | ^ at any type, folding two
constants gives exactly what the simulator computes on streams carrying those values (including undefined
behaviour), at the same type. -/
theorem fold_agrees_with_simulation (F : FloatOps) (op : OpType) (ty : DFType) (a b : Word) (inp : TickIn)
    (h : (op.isArith = true ∧ ty.isRawBits = false) ∨ op.isBitwise = true) :
    ∃ r, foldBinary F op ty a b = some r ∧ processOp F (binNode op ty) inp [a, b] = R.ofExcept r ∧
      streamResultType op ty = ty := by
  rcases ty with ⟨_ | _, _, _⟩ | _ | _ <;> cases op <;>
    simp [OpType.isArith, OpType.isBitwise, DFType.isRawBits] at h <;>
    simp [foldBinary, evalBitwise, evalTyped, processOp, binNode, streamResultType, OpType.isComparison,
      kindByType, simKind, R.ofExcept]

/-- **C06 (comparisons, unsigned).**  For operands of unsigned type the folded truth value equals the simulated
one. -/
theorem fold_comparison_value_unsigned_partial (F : FloatOps) (op : OpType) (i f : Nat) (a b : Word)
    (inp : TickIn) (h : op.isComparison = true) :
    ∃ r, foldBinary F op (.fixed false i f) a b = some r ∧
      processOp F (binNode op (.fixed false i f)) inp [a, b] = R.ofExcept r := by
  cases op <;> simp [OpType.isComparison] at h <;>
    simp [foldBinary, evalBitwise, evalTyped, processOp, binNode, streamResultType, OpType.isComparison,
      kindByType, simKind, R.ofExcept, buildBool, buildFixed]

/-- C06 is false for comparisons of signed constants: `-1 < 1` folds to true but simulates to false. -/
theorem fold_signed_comparison_disagrees (F : FloatOps) (inp : TickIn) :
    ∃ a b : Word, foldBinary F .LESS (.fixed true 31 0) a b = some (.ok 1) ∧
      processOp F (binNode .LESS (.fixed true 31 0)) inp [a, b] = .val 0 :=
  ⟨-1, 1, rfl, rfl⟩

/-- The signed case, exactly: folding and simulation of `<` agree iff the operands have the same sign bit. -/
theorem fold_signed_less_agrees_iff (F : FloatOps) (i f : Nat) (a b : Word) (inp : TickIn) :
    (∃ v, foldBinary F .LESS (.fixed true i f) a b = some (.ok v) ∧
      processOp F (binNode .LESS (.fixed true i f)) inp [a, b] = .val v) ↔ a.msb = b.msb := by
  have ha := a.isLt
  have hb := b.isLt
  simp only [foldBinary, evalBitwise, evalTyped, kindByType, processOp, binNode, streamResultType,
    OpType.isComparison, simKind, buildBool, buildFixed, if_true, List.getElem?_cons_zero,
    List.getElem?_cons_succ, R.ofExcept, Option.some.injEq, Except.ok.injEq, R.val.injEq]
  have h1 : (decide (a.toInt < b.toInt) = decide (a.toNat < b.toNat)) ↔ a.msb = b.msb := by
    rw [decide_eq_decide]
    rw [BitVec.toInt_eq_msb_cond, BitVec.toInt_eq_msb_cond]
    have hma := BitVec.msb_eq_decide a
    have hmb := BitVec.msb_eq_decide b
    cases h : a.msb <;> cases h' : b.msb <;> simp only [h, h'] at hma hmb ⊢ <;> simp at * <;> omega
  rw [← h1]
  constructor
  · rintro ⟨v, h2, h3⟩
    rw [← h3] at h2
    cases h : decide (a.toInt < b.toInt) <;> cases h' : decide (a.toNat < b.toNat) <;>
      simp [h, h', ofBool] at h2 ⊢
  · intro h
    refine ⟨_, rfl, ?_⟩
    rw [h]; cases decide (a.toNat < b.toNat) <;> rfl

/-- C06 is false for the result *type* of a folded comparison: it is the operand type, not the boolean type the
same comparison of streams has. -/
theorem fold_comparison_type_disagrees (op : OpType) (ty : DFType) (h : op.isComparison = true)
    (hty : ty ≠ buildBool) : streamResultType op ty ≠ ty := by
  simp [streamResultType, h]; exact fun h => hty h.symm

/-- Raw-bits constants are folded as doubles although the simulator refuses the operation. -/
theorem fold_rawBits_uses_double (F : FloatOps) (n : Nat) (a b : Word) (inp : TickIn) :
    foldBinary F .ADD (.rawBits n) a b = some (.ok (F.add a b)) ∧
    processOp F (binNode .ADD (.rawBits n)) inp [a, b] = .unsupported := ⟨rfl, rfl⟩

/-! ### C16: the printed low bits -/

/-- Width-`w` hardware meaning of the modular operators. -/
def hwBin (w : Nat) (op : OpType) (x y : BitVec w) : Option (BitVec w) :=
  match op with
  | .ADD => some (x + y)
  | .SUB => some (x - y)
  | .MUL => some (x * y)
  | .AND => some (x &&& y)
  | .OR => some (x ||| y)
  | .XOR => some (x ^^^ y)
  | _ => none

theorem sres_ofInt {r : Int} {v : Word} (h : sres r = .ok v) : v = BitVec.ofInt 64 r := by
  unfold sres at h; split at h <;> cases h; rfl

theorem setWidth_sub' {w : Nat} (hw : w ≤ 64) (a b : Word) :
    (a - b).setWidth w = a.setWidth w - b.setWidth w := by
  rw [BitVec.sub_eq_add_neg, BitVec.setWidth_add _ _ hw, BitVec.setWidth_neg_of_le hw, ← BitVec.sub_eq_add_neg]

/-- **C16 (binary).**  The low `w` bits of what the simulator computes for + - * & | ^ are the `w`-bit result
on the low `w` bits of the operands, for signed and unsigned nodes and every `w ≤ 64`. -/
theorem sim_low_bits_binary (F : FloatOps) (op : OpType) (s : Bool) (i f w : Nat) (hw : w ≤ 64)
    (a b v : Word) (inp : TickIn) (x : BitVec w)
    (hx : hwBin w op (a.setWidth w) (b.setWidth w) = some x)
    (h : processOp F (binNode op (.fixed s i f)) inp [a, b] = .val v) :
    v.setWidth w = x := by
  cases op <;> simp only [hwBin, Option.some.injEq, reduceCtorEq] at hx <;> subst hx <;> cases s <;>
    simp only [processOp, binNode, streamResultType, OpType.isComparison, simKind, evalTyped, evalBitwise,
      List.getElem?_cons_zero, List.getElem?_cons_succ, ofExcept_val, R.val.injEq, Except.ok.injEq,
      Bool.false_eq_true, if_false] at h
  all_goals first
    | (subst h; simp [BitVec.setWidth_add _ _ hw, BitVec.setWidth_mul _ _ hw, setWidth_sub' hw]; done)
    | (have := sres_ofInt h
       rw [this]
       simp only [BitVec.ofInt_add, BitVec.ofInt_mul, BitVec.ofInt_toInt, Int.sub_eq_add_neg, BitVec.ofInt_neg]
       first
         | rw [BitVec.setWidth_add _ _ hw, BitVec.setWidth_neg_of_le hw, ← BitVec.sub_eq_add_neg]
         | rw [BitVec.setWidth_add _ _ hw]
         | rw [BitVec.setWidth_mul _ _ hw])

/-- **C16 (unary).**  Same for negation, complement and left shift. -/
theorem sim_low_bits_unary (F : FloatOps) (s : Bool) (i f w k : Nat) (hw : w ≤ 64) (a v : Word)
    (inp : TickIn) (nm : String) (ins : List (Nat × Bool)) :
    (processOp F ⟨.NEG, .none, .fixed s i f, .stream, nm, ins⟩ inp [a] = .val v →
        v.setWidth w = - a.setWidth w) ∧
    (processOp F ⟨.NOT, .none, .fixed s i f, .stream, nm, ins⟩ inp [a] = .val v →
        v.setWidth w = ~~~ a.setWidth w) ∧
    (processOp F ⟨.SHL, .bitShift k, .fixed s i f, .stream, nm, ins⟩ inp [a] = .val v →
        v.setWidth w = a.setWidth w <<< k) := by
  refine ⟨?_, ?_, ?_⟩
  · intro h
    cases s <;> simp only [processOp, simKind, evalNeg, List.getElem?_cons_zero, ofExcept_val,
      Except.ok.injEq] at h
    · subst h; exact BitVec.setWidth_neg_of_le hw
    · rw [sres_ofInt h, BitVec.ofInt_neg, BitVec.ofInt_toInt]; exact BitVec.setWidth_neg_of_le hw
  · intro h
    simp only [processOp, List.getElem?_cons_zero, R.val.injEq] at h
    subst h
    apply BitVec.eq_of_getLsbD_eq
    intro j hj
    have : j < 64 := by omega
    simp [hj, this]
  · intro h
    simp only [processOp, List.getElem?_cons_zero, ofExcept_val, evalShl] at h
    split at h <;> cases h
    apply BitVec.eq_of_getLsbD_eq
    intro j hj
    have : j < 64 := by omega
    simp [hj, this]
    by_cases hjk : j < k
    · simp [hjk]
    · have : j - k < w := by omega
      simp only [hjk, not_false_eq_true, this, decide_true, Bool.true_and]
      exact (BitVec.getLsbD_eq_getElem (by omega)).symm

/-- The simulator's shift right, division, comparison and multiplexer select do *not* only depend on the low
`w` bits of their operands: operands with equal low 8 bits give different low 8 bits of the result. -/
theorem sim_not_modular (F : FloatOps) (inp : TickIn) :
    ∃ a a' b : Word, a.setWidth 8 = a'.setWidth 8 ∧
      (∃ v v', processOp F ⟨.SHR, .bitShift 1, .fixed false 8 0, .stream, "", [(0, false)]⟩ inp [a] = .val v ∧
        processOp F ⟨.SHR, .bitShift 1, .fixed false 8 0, .stream, "", [(0, false)]⟩ inp [a'] = .val v' ∧
        v.setWidth 8 ≠ v'.setWidth 8) ∧
      (∃ v v', processOp F (binNode .DIV (.fixed false 8 0)) inp [a, b] = .val v ∧
        processOp F (binNode .DIV (.fixed false 8 0)) inp [a', b] = .val v' ∧ v.setWidth 8 ≠ v'.setWidth 8) ∧
      (∃ v v', processOp F (binNode .LESS (.fixed false 8 0)) inp [a, b] = .val v ∧
        processOp F (binNode .LESS (.fixed false 8 0)) inp [a', b] = .val v' ∧ v ≠ v') :=
  ⟨300, 44, 100, by decide, ⟨150, 22, rfl, rfl, by decide⟩,
    ⟨3, 0, rfl, rfl, by decide⟩, ⟨0, 1, rfl, rfl, by decide⟩⟩

/-- A complete graph exhibiting the disagreement: `y = (a + b) >> 1` on 8-bit streams with a=200, b=100 prints
150, while 8-bit hardware gives ((200+100) mod 256)/2 = 22. -/
def shrV : Nat → NodeV
  | 0 => { op := .IN, data := .none, ty := .fixed false 8 0, kind := .stream, name := "a", ins := [] }
  | 1 => { op := .IN, data := .none, ty := .fixed false 8 0, kind := .stream, name := "b", ins := [] }
  | 2 => { op := .ADD, data := .none, ty := .fixed false 8 0, kind := .stream, name := "", ins := [(0, false), (1, false)] }
  | 3 => { op := .SHR, data := .bitShift 1, ty := .fixed false 8 0, kind := .stream, name := "", ins := [(2, false)] }
  | _ => { op := .OUT, data := .none, ty := .fixed false 8 0, kind := .stream, name := "y", ins := [(3, true)] }

theorem sim_differs_from_hardware (F : FloatOps) :
    ∃ vals', runSim F shrV [0, 1, 2, 3, 4] (fun _ => none)
        (fun s => if s = "a" then .ok 200 else if s = "b" then .ok 100 else .error .throw) = .done vals' ∧
      (vals' 4).map (BitVec.setWidth 8) = some 150#8 ∧
      ((BitVec.ofNat 8 200 + BitVec.ofNat 8 100) >>> 1) = 22#8 := ⟨_, rfl, rfl, rfl⟩

/-! #### Whole graphs of modular operators -/

/-- `w`-bit hardware value of a node in a graph of modular operators whose nodes all have width `w`. -/
inductive HwDenotes (w : Nat) (V : Nat → NodeV) (inp : String → Except Fault (BitVec w)) : Nat → BitVec w → Prop
  | input (n v) (h : (V n).op = .IN) (hv : inp (V n).name = .ok v) : HwDenotes w V inp n v
  | const (n) (c : Word) (h : (V n).op = .CONST) (hc : (V n).kind = .const c) :
      HwDenotes w V inp n (c.setWidth w)
  | out (n s v rest) (h : (V n).op = .OUT) (hs : (V n).srcs = s :: rest) (hv : HwDenotes w V inp s v) :
      HwDenotes w V inp n v
  | bin (n s₁ s₂ x y v) (rest) (hs : (V n).srcs = s₁ :: s₂ :: rest) (h₁ : HwDenotes w V inp s₁ x)
      (h₂ : HwDenotes w V inp s₂ y) (hv : hwBin w (V n).op x y = some v) : HwDenotes w V inp n v
  | neg (n s x rest) (h : (V n).op = .NEG) (hs : (V n).srcs = s :: rest) (hx : HwDenotes w V inp s x) :
      HwDenotes w V inp n (-x)
  | not (n s x rest) (h : (V n).op = .NOT) (hs : (V n).srcs = s :: rest) (hx : HwDenotes w V inp s x) :
      HwDenotes w V inp n (~~~ x)
  | shl (n s x k rest) (h : (V n).op = .SHL) (hs : (V n).srcs = s :: rest) (hd : (V n).data = .bitShift k)
      (hx : HwDenotes w V inp s x) : HwDenotes w V inp n (x <<< k)

/-- Operators for which 64-bit simulation is exact modulo 2^w. -/
def Modular (n : NodeV) : Prop :=
  n.op ∈ [.IN, .OUT, .CONST, .ADD, .SUB, .MUL, .AND, .OR, .XOR, .NEG, .NOT, .SHL] ∧ n.ty.isFixed = true

theorem processOp_congr (F : FloatOps) (n n' : NodeV) (inp : TickIn) (args : List Word)
    (h1 : n.op = n'.op) (h2 : n.data = n'.data) (h3 : n.ty = n'.ty) (h4 : n.kind = n'.kind)
    (h5 : n.name = n'.name) : processOp F n inp args = processOp F n' inp args := by
  rcases n with ⟨op, data, ty, kind, name, ins⟩
  rcases n' with ⟨op', data', ty', kind', name', ins'⟩
  simp only at h1 h2 h3 h4 h5
  subst h1 h2 h3 h4 h5
  rfl

/-- **C16 (graphs).**  In a graph built from modular operators, the low `w` bits the simulator reports for each
node are the `w`-bit hardware value. -/
theorem sim_low_bits_graph (F : FloatOps) (V : Nat → NodeV) (inp : TickIn) (w : Nat) (hw : w ≤ 64)
    (hsh : ∀ n, (V n).Shape) (hmod : ∀ n, Modular (V n)) {n : Nat} {v : Word}
    (h : Denotes F V inp n v) :
    HwDenotes w V (fun s => (inp s).map (BitVec.setWidth w)) n (v.setWidth w) := by
  induction h with
  | node n val v hargs hv ih =>
    have hM := hmod n
    have hpo : processOp F (V n) inp ((V n).srcs.map val) = .val v := by
      refine (processOp_iff_means F (V n) (hsh n) inp _ (by simp [NodeV.srcs]) ?_ v).2 hv
      rintro ⟨hmx, -⟩
      have := hM.1
      simp [hmx] at this
    have hlen : (V n).srcs.length = (V n).ins.length := by simp [NodeV.srcs]
    have hty : ∃ s i f, (V n).ty = .fixed s i f := by
      have := hM.2
      cases h : (V n).ty <;> simp [h, DFType.isFixed] at this
      exact ⟨_, _, _, rfl⟩
    obtain ⟨sg, i, f, hty⟩ := hty
    have two : 2 ≤ (V n).ins.length → ∃ s₁ s₂ rest, (V n).srcs = s₁ :: s₂ :: rest := by
      intro hl; rw [← hlen] at hl
      match (V n).srcs, hl with
      | a :: b :: t, _ => exact ⟨a, b, t, rfl⟩
    have one : 1 ≤ (V n).ins.length → ∃ s₁ rest, (V n).srcs = s₁ :: rest := by
      intro hl; rw [← hlen] at hl
      match (V n).srcs, hl with
      | a :: t, _ => exact ⟨a, t, rfl⟩
    -- binary operators
    have binCase : ∀ op, (V n).op = op → op ∈ [OpType.ADD, .SUB, .MUL, .AND, .OR, .XOR] →
        HwDenotes w V (fun s => (inp s).map (BitVec.setWidth w)) n (v.setWidth w) := by
      intro op hop hmem
      have h2 : 2 ≤ (V n).ins.length := (hsh n).binary (by
        rw [hop]; simp only [List.mem_cons, List.not_mem_nil, or_false] at hmem ⊢; tauto)
      obtain ⟨s₁, s₂, rest, hs⟩ := two h2
      have hcomp : op.isComparison = false := by
        simp only [List.mem_cons, List.not_mem_nil, or_false] at hmem
        rcases hmem with rfl | rfl | rfl | rfl | rfl | rfl <;> rfl
      have harg : ∃ x, hwBin w op ((val s₁).setWidth w) ((val s₂).setWidth w) = some x := by
        simp only [List.mem_cons, List.not_mem_nil, or_false] at hmem
        rcases hmem with rfl | rfl | rfl | rfl | rfl | rfl <;> exact ⟨_, rfl⟩
      obtain ⟨x, hx⟩ := harg
      have hpo' : processOp F (binNode op (.fixed sg i f)) inp [val s₁, val s₂] = .val v := by
        rw [hs] at hpo
        simp only [List.map_cons] at hpo
        have hb : (binNode op (.fixed sg i f)).ty = (V n).ty := by
          simp [binNode, streamResultType, hcomp, hty]
        rw [← hpo]
        simp only [List.mem_cons, List.not_mem_nil, or_false] at hmem
        rcases hmem with rfl | rfl | rfl | rfl | rfl | rfl <;>
          simp [processOp, binNode, hop, hty, streamResultType, OpType.isComparison]
      have := sim_low_bits_binary F op sg i f w hw _ _ v inp x hx hpo'
      rw [this]
      exact .bin n s₁ s₂ _ _ x rest hs (ih s₁ (by simp [hs])) (ih s₂ (by simp [hs])) (by rw [hop]; exact hx)
    have hmem := hM.1
    simp only [List.mem_cons, List.not_mem_nil, or_false] at hmem
    rcases hmem with h | h | h | h | h | h | h | h | h | h | h | h
    · -- IN
      refine .input n _ h ?_
      have : inp (V n).name = .ok v := by
        rw [processOp, h] at hpo; simp only at hpo
        cases hi : inp (V n).name with
        | ok u => rw [hi] at hpo; simpa [R.ofExcept] using hpo
        | error f => rw [hi] at hpo; simp [R.ofExcept] at hpo
      simp [this, Except.map]
    · -- OUT
      obtain ⟨s₁, rest, hs⟩ := one ((hsh n).unary (by simp [h]))
      have : val s₁ = v := by
        rw [processOp, h, hs] at hpo; simpa using hpo
      rw [← this]
      exact .out n s₁ _ rest h hs (ih s₁ (by simp [hs]))
    · -- CONST
      obtain ⟨c, hc⟩ := (hsh n).const h
      have : c = v := by rw [processOp, h, hc] at hpo; simpa using hpo
      rw [← this]
      exact .const n c h hc
    · exact binCase _ h (by simp)
    · exact binCase _ h (by simp)
    · exact binCase _ h (by simp)
    · exact binCase _ h (by simp)
    · exact binCase _ h (by simp)
    · exact binCase _ h (by simp)
    · -- NEG
      obtain ⟨s₁, rest, hs⟩ := one ((hsh n).unary (by simp [h]))
      have := (sim_low_bits_unary F sg i f w 0 hw (val s₁) v inp (V n).name (V n).ins).1 (by
        rw [← hpo, hs]; simp [processOp, h, hty])
      rw [this]
      exact .neg n s₁ _ rest h hs (ih s₁ (by simp [hs]))
    · -- NOT
      obtain ⟨s₁, rest, hs⟩ := one ((hsh n).unary (by simp [h]))
      have := (sim_low_bits_unary F sg i f w 0 hw (val s₁) v inp (V n).name (V n).ins).2.1 (by
        rw [← hpo, hs]; simp [processOp, h])
      rw [this]
      exact .not n s₁ _ rest h hs (ih s₁ (by simp [hs]))
    · -- SHL
      obtain ⟨s₁, rest, hs⟩ := one ((hsh n).unary (by simp [h]))
      obtain ⟨k, hk⟩ := (hsh n).shift (by simp [h])
      have := (sim_low_bits_unary F sg i f w k hw (val s₁) v inp (V n).name (V n).ins).2.2 (by
        rw [← hpo, hs]; simp [processOp, h, hk])
      rw [this]
      exact .shl n s₁ _ k rest h hs hk (ih s₁ (by simp [hs]))

/-! ### C17: comparisons -/

/-- Truth of a comparison of mathematical integers. -/
def cmpTrue (op : OpType) (x y : Int) : Prop :=
  match op with
  | .LESS => x < y | .LESSEQ => x ≤ y | .GREATER => x > y | .GREATEREQ => x ≥ y | .EQ => x = y | .NEQ => x ≠ y
  | _ => False

/-- **C17 (unsigned operands).**  A comparison of streams of unsigned type reports the truth of the comparison
of the operand values. -/
theorem comparison_unsigned_correct_partial (F : FloatOps) (op : OpType) (hop : op.isComparison = true)
    (i f : Nat) (a b : Word) (inp : TickIn) :
    ∃ v, processOp F (binNode op (.fixed false i f)) inp [a, b] = .val v ∧
      IsBool v (cmpTrue op a.toNat b.toNat) := by
  cases op <;> simp only [OpType.isComparison, Bool.false_eq_true] at hop <;>
    refine ⟨_, rfl, ?_⟩ <;> simp only [cmpTrue]
  · exact isBool_iff.2 (by simp [Int.ofNat_lt])
  · exact isBool_iff.2 (by simp [Int.ofNat_le])
  · exact isBool_iff.2 (by simp [Int.ofNat_lt])
  · exact isBool_iff.2 (by simp [Int.ofNat_le])
  · refine isBool_iff.2 ?_
    congr 1
    by_cases h : a = b
    · simp [h]
    · have : (a == b) = false := by simpa using h
      have h2 : a.toNat ≠ b.toNat := fun hh => h (BitVec.eq_of_toNat_eq hh)
      simp [this, Int.natCast_inj, h2]
  · refine isBool_iff.2 ?_
    congr 1
    by_cases h : a = b
    · simp [h]
    · have : (a == b) = false := by simpa using h
      have h2 : a.toNat ≠ b.toNat := fun hh => h (BitVec.eq_of_toNat_eq hh)
      simp [this, bne, Int.natCast_inj, h2]

/-- C17 is false for signed operand types: whatever the operand type, `<` compares as unsigned, so for 64-bit
signed operands the reported truth value is right iff the sign bits agree. -/
theorem comparison_signed_correct_iff (F : FloatOps) (i f : Nat) (a b : Word) (inp : TickIn) :
    (∃ v, processOp F (binNode .LESS (.fixed true i f)) inp [a, b] = .val v ∧
      IsBool v (cmpTrue .LESS a.toInt b.toInt)) ↔ a.msb = b.msb := by
  rw [← fold_signed_less_agrees_iff F i f a b inp]
  constructor
  · rintro ⟨v, h1, h2⟩
    refine ⟨v, ?_, h1⟩
    have : v = ofBool .uint (decide (a.toInt < b.toInt)) := (isBool_iff (p := a.toInt < b.toInt)).1 h2
    rw [this]; simp only [foldBinary, evalBitwise, evalTyped, kindByType]
    cases decide (a.toInt < b.toInt) <;> rfl
  · rintro ⟨v, h1, h2⟩
    refine ⟨v, h2, ?_⟩
    have : v = ofBool .int (decide (a.toInt < b.toInt)) := by
      simp only [foldBinary, evalBitwise, evalTyped, kindByType, Option.some.injEq, Except.ok.injEq] at h1
      exact h1.symm
    show IsBool v (a.toInt < b.toInt)
    rw [isBool_iff, this]
    cases decide (a.toInt < b.toInt) <;> rfl

/-- Witness: `-1 < 1` on signed streams is reported false. -/
theorem comparison_signed_wrong (F : FloatOps) (inp : TickIn) :
    processOp F (binNode .LESS (.fixed true 31 0)) inp [(-1 : Word), (1 : Word)] = .val 0 ∧
      cmpTrue .LESS (-1 : Word).toInt (1 : Word).toInt := by
  refine ⟨rfl, ?_⟩
  show (-1 : Word).toInt < (1 : Word).toInt
  decide

end Verif.Dfcxx
