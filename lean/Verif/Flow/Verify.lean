import Verif.Flow.Props
import Verif.Flow.Examples
import Verif.Dfcxx.Kinds
/-
C61: the dialect's verifier.  MLIR verifies the operation a pass ran on after every pass (the pass manager of
dfcir_processor.cpp:57-125 never disables that), so the constraints of the dialect decide which kernels compile.
-/
namespace Verif.Flow
open Verif.Dfcxx Verif.Sched

/-! ### Model -/

/-- Types of the values of a block, by value number. -/
def valuesOf (stmts : List DStmt) : List DTy :=
  stmts.filterMap fun s => match s with
    | .op _ ty _ _ => some ty
    | .connect _ _ => none

/-- The constraints of DFCIROperations.td on operand and result types.  `Variable` (DFCIRTypes.td:140) is any of the three wrappers, so it
constrains nothing here; `SameOperandsAndResultType` is equality of types.  Lines: inputs and outputs 37-100, constant 102-109, neg 245,
offset 363-372, mux 382-391, binary operators 247-256 and 393-425, not 450-459, cast 461, bits 463-473, cat 475-484, shifts 486-500. -/
def verifyOp (k : DKind) (res : DTy) (args : List DTy) : Bool :=
  match k, args with
  | .input, [] | .output, [] => res.wrap = .stream
  | .scalarInput, [] | .scalarOutput, [] => res.wrap = .scalar
  | .constant, [] => res.wrap = .const
  | .offset, [a] => a.wrap = .stream ∧ res.wrap = .stream
  | .mux, c :: _ => c.wrap = .stream
  | .neg, [a] | .not, [a] => a = res
  | .cast, [_] | .shl, [_] | .shr, [_] | .bits, [_] => true
  | .add, [_, _] | .sub, [_, _] | .mul, [_, _] | .div, [_, _] | .and, [_, _] | .or, [_, _] | .xor, [_, _] | .cat, [_, _] => true
  | .less, [_, _] | .lessEq, [_, _] | .greater, [_, _] | .greaterEq, [_, _] | .eq, [_, _] | .notEq, [_, _] => true
  | _, _ => false

/-- Verification of one operation of a block whose values have types `tys`; `dfcir.connect` (lines 111-118) constrains nothing. -/
def verifyStmt (tys : List DTy) : DStmt → Bool
  | .op k res _ operands => match operands.mapM fun v => tys[v]? with
    | some args => verifyOp k res args
    | none => false
  | .connect d s => (tys[d]?).isSome && (tys[s]?).isSome

/-- Verification of a block (before scheduling). -/
def verifyBlock (stmts : List DStmt) : Bool := stmts.all (verifyStmt (valuesOf stmts))

/-- Type of a value of the block. -/
def valueTy (stmts : List DStmt) (v : Nat) : DTy := (valuesOf stmts)[v]?.getD ⟨.stream, .rawBits 0⟩

/-- Verification of value `v` of a scheduled block: kinds and types of the original operations are those of `stmts`; a `dfcir.latency`
(lines 120-128) has the type of its operand and constrains nothing. -/
def verifyValue (stmts : List DStmt) (X : Prog) (v : Nat) : Bool :=
  match X.defn v, (opsOf stmts)[v]? with
  | .latency _ _, _ => true
  | .erased, _ => true
  | .node args, some o => verifyOp o.kind (valueTy stmts v) (args.map (valTy (valueTy stmts) X))
  | .offset s _, some o => verifyOp o.kind (valueTy stmts v) [valTy (valueTy stmts) X s]
  | _, some o => verifyOp o.kind (valueTy stmts v) []
  | _, none => false

/-! ### Specification -/

/-- What the dialect demands of a node: the operand of `~` and unary `-` is a stream of the type of the result, offsets are taken of
streams, multiplexers are selected by streams. -/
def DialectOK (V : Nat → NodeV) (n : Nat) : Prop :=
  match (V n).op with
  | .NOT | .NEG => ∀ s ∈ (V n).srcs, (V s).kind = .stream ∧ (V s).ty = (V n).ty
  | .OFFSET => ∀ s ∈ (V n).srcs, (V s).kind = .stream
  | .MUX => ∀ c alts, (V n).srcs = c :: alts → (V c).kind = .stream
  | _ => True

/-! ### Proofs -/

theorem valuesOf_exact (V : Nat → NodeV) (idx : Nat → Nat) : ∀ l : List Nat,
    valuesOf (l.flatMap (exactStmts V idx)) = l.map fun n => (exactOp V idx n).2.1
  | [] => rfl
  | n :: l => by
    have ih := valuesOf_exact V idx l
    unfold valuesOf at ih ⊢
    rw [List.flatMap_cons, List.filterMap_append, ih]
    unfold exactStmts exactStmt
    cases getConnection (V n) <;> simp

theorem value_at (V : Nat → NodeV) {order : List Nat} {n : Nat} (hn : n ∈ order) :
    (valuesOf (block V order))[order.idxOf n]? = some (exactOp V order.idxOf n).2.1 := by
  simp [block, valuesOf_exact, getElem?_idxOf hn]

section
variable {V : Nat → NodeV} {order : List Nat}

theorem dty_ne_offset {idx : Nat → Nat} {n : Nat} (ho : (V n).op ≠ .OFFSET) : (exactOp V idx n).2.1 = convTy (V n) := by
  simp only [exactOp, ho, if_false]
  cases binaryKind (V n).op with
  | some k => rfl
  | none =>
    cases unaryKind (V n) with
    | some p =>
      obtain ⟨k, a⟩ := p
      dsimp only
      split <;> rfl
    | none =>
      cases (V n).op <;> dsimp only
      case CONST => split <;> rfl
      all_goals first | rfl | (split <;> rfl)

theorem dty_ty {idx : Nat → Nat} {n : Nat} (hc : Complete V n) : (exactOp V idx n).2.1.ty = (V n).ty := by
  have hcv : ∀ v : NodeV, (convTy v).ty = v.ty := by intro v; unfold convTy; cases v.kind <;> rfl
  by_cases ho : (V n).op = .OFFSET
  · obtain ⟨⟨o, hd⟩, ht⟩ := hc.offset ho
    obtain ⟨a, ha⟩ := hc.unary (by simp [ho])
    simp [exactOp, ho, binaryKind, unaryKind, ha, hd, hcv, ht a]
  · rw [dty_ne_offset ho, hcv]

theorem conv_stream {v : NodeV} : (convTy v).wrap = .stream ↔ v.kind = .stream := by
  unfold convTy; cases v.kind <;> simp

/-- A value with a stream type is a stream. -/
theorem stream_of_dty {idx : Nat → Nat} {n : Nat} (hk : KindOK (V n).op (V n).kind) (h : (exactOp V idx n).2.1.wrap = .stream) :
    (V n).kind = .stream := by
  by_cases ho : (V n).op = .OFFSET
  · simpa [KindOK, ho] using hk
  · rw [dty_ne_offset ho] at h; exact conv_stream.mp h

theorem dty_stream {idx : Nat → Nat} {n : Nat} (hc : Complete V n) (hd : DialectOK V n) (h : (V n).kind = .stream) :
    (exactOp V idx n).2.1 = ⟨.stream, (V n).ty⟩ := by
  have h2 : (exactOp V idx n).2.1.wrap = .stream := by
    by_cases ho : (V n).op = .OFFSET
    · obtain ⟨⟨o, hdt⟩, -⟩ := hc.offset ho
      obtain ⟨a, ha⟩ := hc.unary (by simp [ho])
      simp only [DialectOK, ho] at hd
      simp [exactOp, ho, binaryKind, unaryKind, hdt, ha, conv_stream, hd a (by simp [ha])]
    · rw [dty_ne_offset ho]; exact conv_stream.mpr h
  have h3 := dty_ty (idx := idx) hc
  generalize (exactOp V idx n).2.1 = x at h2 h3
  cases x; simp_all

theorem mapM_values (hto : TopoOrder V order) {l : List Nat} (hl : ∀ s ∈ l, s ∈ order) :
    (l.map order.idxOf).mapM (fun v => (valuesOf (block V order))[v]?) = some (l.map fun s => (exactOp V order.idxOf s).2.1) := by
  induction l with
  | nil => rfl
  | cons s l ih =>
    have h1 := value_at V (hl s (by simp))
    have h2 := ih fun x hx => hl x (by simp [hx])
    simp [List.mapM_cons, h1, h2]

/-- One operation. -/
theorem verify_node (hc : ∀ n ∈ order, Complete V n) (hk : ∀ n, KindOK (V n).op (V n).kind) (hto : TopoOrder V order) {n : Nat}
    (hn : n ∈ order) :
    verifyStmt (valuesOf (block V order)) (exactStmt V order.idxOf n) =
      verifyOp (exactOp V order.idxOf n).1 (exactOp V order.idxOf n).2.1
        ((if (V n).op = .MUX then match (V n).srcs with
          | c :: alts => c :: alts.reverse
          | [] => []
          else if (V n).op = .IN ∨ (V n).op = .OUT ∨ (V n).op = .CONST then [] else (V n).srcs).map
          fun s => (exactOp V order.idxOf s).2.1) := by
  have hcn := hc n hn
  have hin : ∀ s ∈ (V n).srcs, s ∈ order := fun s hs => (srcs_in_order hto hn hs).1
  have key : ∀ l : List Nat, (∀ s ∈ l, s ∈ order) → (exactOp V order.idxOf n).2.2.2 = l.map order.idxOf →
      verifyStmt (valuesOf (block V order)) (exactStmt V order.idxOf n) =
        verifyOp (exactOp V order.idxOf n).1 (exactOp V order.idxOf n).2.1 (l.map fun s => (exactOp V order.idxOf s).2.1) := by
    intro l hl he
    simp only [verifyStmt, exactStmt, he, mapM_values hto hl]
  have hkn := hk n
  cases ho : (V n).op
  case NONE => exact absurd ho hcn.notNone
  case IN => exact key [] (by simp) (by simp [exactOp, ho, binaryKind, unaryKind])
  case OUT => exact key [] (by simp) (by simp [exactOp, ho, binaryKind, unaryKind])
  case CONST =>
    obtain ⟨c, hkc⟩ := hcn.const ho
    exact key [] (by simp) (by simp [exactOp, ho, binaryKind, unaryKind, hkc])
  case MUX =>
    obtain ⟨hd, c, alts, he⟩ := hcn.mux ho
    rw [he]
    refine key (c :: alts.reverse) ?_ (by simp [exactOp, ho, binaryKind, unaryKind, he])
    intro s hs
    exact hin s (by rw [he]; simpa using hs)
  case OFFSET =>
    obtain ⟨⟨o, hd⟩, -⟩ := hcn.offset ho
    exact key (V n).srcs hin (by simp [exactOp, ho, binaryKind, unaryKind, hd])
  case SHL =>
    obtain ⟨k, hd⟩ := hcn.shift (by simp [ho])
    exact key (V n).srcs hin (by simp [exactOp, ho, binaryKind, unaryKind, hd])
  case SHR =>
    obtain ⟨k, hd⟩ := hcn.shift (by simp [ho])
    exact key (V n).srcs hin (by simp [exactOp, ho, binaryKind, unaryKind, hd])
  case BITS =>
    obtain ⟨l, r, hd⟩ := hcn.bits ho
    exact key (V n).srcs hin (by simp [exactOp, ho, binaryKind, unaryKind, hd])
  all_goals exact key (V n).srcs hin (by simp [exactOp, ho, binaryKind, unaryKind])

theorem convTy_eq {v : NodeV} (h : v.kind = .stream) : convTy v = ⟨.stream, v.ty⟩ := by simp [convTy, h]

/-- Accepted operations satisfy the constraints, and conversely if the operands' own constraints hold. -/
theorem verify_node_iff (hc : ∀ n ∈ order, Complete V n) (hk : ∀ n, KindOK (V n).op (V n).kind) (hto : TopoOrder V order) {n : Nat}
    (hn : n ∈ order) :
    (verifyStmt (valuesOf (block V order)) (exactStmt V order.idxOf n) = true → DialectOK V n) ∧
    (DialectOK V n → (∀ s ∈ (V n).srcs, DialectOK V s) →
      verifyStmt (valuesOf (block V order)) (exactStmt V order.idxOf n) = true) := by
  rw [verify_node hc hk hto hn]
  have hcn := hc n hn
  have hkn := hk n
  have hin : ∀ s ∈ (V n).srcs, s ∈ order := fun s hs => (srcs_in_order hto hn hs).1
  have hst : (V n).op ≠ .OFFSET → (exactOp V order.idxOf n).2.1 = convTy (V n) := dty_ne_offset
  cases ho : (V n).op
  case NONE => exact absurd ho hcn.notNone
  case IN =>
    simp only [KindOK, ho] at hkn
    have hd : DialectOK V n := by simp [DialectOK, ho]
    refine ⟨fun _ => hd, fun _ _ => ?_⟩
    rcases hkn with h | h <;> simp [exactOp, ho, binaryKind, unaryKind, h, verifyOp, convTy]
  case OUT =>
    simp only [KindOK, ho] at hkn
    have hd : DialectOK V n := by simp [DialectOK, ho]
    refine ⟨fun _ => hd, fun _ _ => ?_⟩
    rcases hkn with h | h <;> simp [exactOp, ho, binaryKind, unaryKind, h, verifyOp, convTy]
  case CONST =>
    obtain ⟨c, h⟩ := hcn.const ho
    have hd : DialectOK V n := by simp [DialectOK, ho]
    refine ⟨fun _ => hd, fun _ _ => ?_⟩
    simp [exactOp, ho, binaryKind, unaryKind, h, verifyOp, convTy]
  case MUX =>
    obtain ⟨-, c, alts, he⟩ := hcn.mux ho
    have h1 : (exactOp V order.idxOf n).1 = .mux := by simp [exactOp, ho, binaryKind, unaryKind, he]
    simp only [h1, he, if_true, List.map_cons, verifyOp, decide_eq_true_eq, DialectOK, ho, List.cons.injEq]
    refine ⟨fun h c' alts' hca => ?_, fun h hs => ?_⟩
    · rw [← hca.1]; exact stream_of_dty (hk c) h
    · rw [dty_stream (hc c (hin c (by simp [he]))) (hs c (by simp [he])) (h c alts ⟨rfl, rfl⟩)]
  case OFFSET =>
    obtain ⟨⟨o, hdt⟩, -⟩ := hcn.offset ho
    obtain ⟨a, ha⟩ := hcn.unary (by simp [ho])
    have h1 : (exactOp V order.idxOf n).1 = .offset := by simp [exactOp, ho, binaryKind, unaryKind, hdt]
    have h2 : (exactOp V order.idxOf n).2.1 = convTy (V a) := by simp [exactOp, ho, binaryKind, unaryKind, hdt, ha]
    simp only [h1, ha]
    simp only [List.map_cons, List.map_nil, reduceCtorEq, if_false, or_self, verifyOp, decide_eq_true_eq, DialectOK, ho, ha]
    refine ⟨fun h s hs => ?_, fun h hs => ?_⟩
    · have : s = a := by simpa using hs
      subst this
      exact stream_of_dty (hk s) h.1
    · have hsa := h a (by simp)
      rw [dty_stream (hc a (hin a (by simp [ha]))) (hs a (by simp)) hsa, h2]
      exact ⟨rfl, conv_stream.mpr hsa⟩
  case NOT =>
    obtain ⟨a, ha⟩ := hcn.unary (by simp [ho])
    have h1 : (exactOp V order.idxOf n).1 = .not := by simp [exactOp, ho, binaryKind, unaryKind]
    have h2 := hst (by simp [ho])
    have h3 : (V n).kind = .stream := by simpa [KindOK, ho] using hkn
    rw [convTy_eq h3] at h2
    simp only [h1, h2, ha]
    simp only [List.map_cons, List.map_nil, reduceCtorEq, if_false, or_self, verifyOp, decide_eq_true_eq, DialectOK, ho, ha]
    refine ⟨fun h s hs => ?_, fun h hs => ?_⟩
    · have : s = a := by simpa using hs
      subst this
      refine ⟨stream_of_dty (hk s) (by rw [h]), ?_⟩
      rw [← dty_ty (idx := order.idxOf) (hc s (hin s (by simp [ha]))), h]
    · obtain ⟨hsa, hty⟩ := h a (by simp)
      rw [dty_stream (hc a (hin a (by simp [ha]))) (hs a (by simp)) hsa, hty]
  case NEG =>
    obtain ⟨a, ha⟩ := hcn.unary (by simp [ho])
    have h1 : (exactOp V order.idxOf n).1 = .neg := by simp [exactOp, ho, binaryKind, unaryKind]
    have h2 := hst (by simp [ho])
    have h3 : (V n).kind = .stream := by simpa [KindOK, ho] using hkn
    rw [convTy_eq h3] at h2
    simp only [h1, h2, ha]
    simp only [List.map_cons, List.map_nil, reduceCtorEq, if_false, or_self, verifyOp, decide_eq_true_eq, DialectOK, ho, ha]
    refine ⟨fun h s hs => ?_, fun h hs => ?_⟩
    · have : s = a := by simpa using hs
      subst this
      refine ⟨stream_of_dty (hk s) (by rw [h]), ?_⟩
      rw [← dty_ty (idx := order.idxOf) (hc s (hin s (by simp [ha]))), h]
    · obtain ⟨hsa, hty⟩ := h a (by simp)
      rw [dty_stream (hc a (hin a (by simp [ha]))) (hs a (by simp)) hsa, hty]
  case CAST =>
    obtain ⟨a, ha⟩ := hcn.unary (by simp [ho])
    exact ⟨fun _ => by simp [DialectOK, ho], fun _ _ => by simp [exactOp, ho, binaryKind, unaryKind, ha, verifyOp]⟩
  case SHL =>
    obtain ⟨a, ha⟩ := hcn.unary (by simp [ho])
    obtain ⟨k, hd⟩ := hcn.shift (by simp [ho])
    exact ⟨fun _ => by simp [DialectOK, ho], fun _ _ => by simp [exactOp, ho, binaryKind, unaryKind, ha, hd, verifyOp]⟩
  case SHR =>
    obtain ⟨a, ha⟩ := hcn.unary (by simp [ho])
    obtain ⟨k, hd⟩ := hcn.shift (by simp [ho])
    exact ⟨fun _ => by simp [DialectOK, ho], fun _ _ => by simp [exactOp, ho, binaryKind, unaryKind, ha, hd, verifyOp]⟩
  case BITS =>
    obtain ⟨a, ha⟩ := hcn.unary (by simp [ho])
    obtain ⟨l, r, hd⟩ := hcn.bits ho
    exact ⟨fun _ => by simp [DialectOK, ho], fun _ _ => by simp [exactOp, ho, binaryKind, unaryKind, ha, hd, verifyOp]⟩
  all_goals
    obtain ⟨a, b, hab⟩ := hcn.binary (by simp [ho])
    exact ⟨fun _ => by simp [DialectOK, ho], fun _ _ => by simp [exactOp, ho, binaryKind, hab, verifyOp]⟩

theorem block_verifies_iff (hc : ∀ n ∈ order, Complete V n) (hk : ∀ n, KindOK (V n).op (V n).kind) (hto : TopoOrder V order) :
    verifyBlock (block V order) = true ↔ ∀ n ∈ order, DialectOK V n := by
  have hone : ∀ n ∈ order, (exactStmts V order.idxOf n).all (verifyStmt (valuesOf (block V order))) =
      verifyStmt (valuesOf (block V order)) (exactStmt V order.idxOf n) := by
    intro n hn
    unfold exactStmts
    cases hg : getConnection (V n) with
    | none => simp
    | some s =>
      have hs : s ∈ (V n).srcs := by
        unfold getConnection at hg
        split at hg
        · rename_i x hx; cases hg; simp [NodeV.srcs, hx]
        · cases hg
      have h1 := value_at V hn
      have h2 := value_at V (srcs_in_order hto hn hs).1
      simp [verifyStmt, h1, h2]
  have : verifyBlock (block V order) = true ↔ ∀ n ∈ order, verifyStmt (valuesOf (block V order)) (exactStmt V order.idxOf n) = true := by
    have e : verifyBlock (block V order) =
        order.all fun n => (exactStmts V order.idxOf n).all (verifyStmt (valuesOf (block V order))) := by
      conv_lhs => unfold verifyBlock
      conv_lhs => arg 1; unfold block
      rw [List.all_flatMap]
    rw [e, List.all_eq_true]
    exact ⟨fun h n hn => by rw [← hone n hn]; exact h n hn, fun h n hn => by rw [hone n hn]; exact h n hn⟩
  rw [this]
  exact ⟨fun h n hn => (verify_node_iff hc hk hto hn).1 (h n hn),
    fun h n hn => (verify_node_iff hc hk hto hn).2 (h n hn) fun s hs => h s (srcs_in_order hto hn hs).1⟩

theorem valueTy_at {n : Nat} (hn : n ∈ order) : valueTy (block V order) (order.idxOf n) = (exactOp V order.idxOf n).2.1 := by
  simp [valueTy, value_at V hn]

/-- Scheduling keeps a verified block verified. -/
theorem scheduled_verifies (hc : ∀ n ∈ order, Complete V n) (hk : ∀ n, KindOK (V n).op (V n).kind) (hto : TopoOrder V order)
    (hof : ∀ n ∈ order, ∀ k, (V n).data = .offset k → -(2^31 : Int) ≤ k ∧ k < 2^31)
    (hd : ∀ n ∈ order, DialectOK V n) {bs : List (Sched.Chan × Int)} (hbs : ∀ p ∈ bs, p.1 ∈ channels (progOf (block V order)))
    {X : Prog} (h : applySchedule (progOf (block V order)) bs = .ok X) : ∀ v < X.size, verifyValue (block V order) X v = true := by
  have hP := block_wf hto hc hof
  have hoff : ∀ v < (progOf (block V order)).size, ∀ s k, (progOf (block V order)).defn v = .offset s k →
      valueTy (block V order) s = valueTy (block V order) v := by
    intro v hv s k hdf
    rw [progOf_size] at hv
    obtain ⟨hn, hi⟩ := value_is_node hto.nodup hv
    generalize order[v] = n at hn hi
    subst hi
    rw [progOf_defn V hn (hc n hn)] at hdf
    have ho : (V n).op = .OFFSET := by
      unfold defOf at hdf
      cases ho : (V n).op
      case OFFSET => rfl
      case IN => rw [ho] at hdf; by_cases hk : (V n).kind = .stream <;> simp [hk] at hdf
      case MUX => rw [ho] at hdf; cases he : (V n).srcs <;> simp [he] at hdf
      all_goals rw [ho] at hdf; simp at hdf
    obtain ⟨⟨o, hdt⟩, hty⟩ := (hc n hn).offset ho
    obtain ⟨a, ha⟩ := (hc n hn).unary (by simp [ho])
    simp only [defOf, ho, hdt, ha, Def.offset.injEq] at hdf
    obtain ⟨rfl, -⟩ := hdf
    have hao := (srcs_in_order hto hn (s := a) (by simp [ha])).1
    have hks : (V a).kind = .stream := by
      have := hd n hn
      simp only [DialectOK, ho] at this
      exact this a (by simp [ha])
    have hkn : (V n).kind = .stream := by simpa [KindOK, ho] using hk n
    rw [valueTy_at hao, valueTy_at hn, dty_stream (hc a hao) (hd a hao) hks, dty_stream (hc n hn) (hd n hn) hkn, hty a (by simp [ha])]
  obtain ⟨hi, -⟩ := applySchedule_tyInv (base := valueTy (block V order)) hP (progOf_beyond _) hoff hbs h
  intro v hv
  by_cases hvo : v < order.length
  · obtain ⟨hn, he⟩ := value_is_node hto.nodup hvo
    generalize order[v] = n at hn he
    subst he
    have hdi := hi.defs (order.idxOf n) (by rw [progOf_size]; exact hvo)
    rw [progOf_defn V hn (hc n hn)] at hdi
    have hver := (verify_node_iff hc hk hto hn).2 (hd n hn) (fun s hs => hd s (srcs_in_order hto hn hs).1)
    rw [verify_node hc hk hto hn, ← valueTy_at hn] at hver
    have hop := ops_at V hn
    have hbase : ∀ l : List Nat, (∀ s ∈ l, s ∈ order) →
        (l.map order.idxOf).map (valueTy (block V order)) = l.map fun s => (exactOp V order.idxOf s).2.1 := by
      intro l hl
      rw [List.map_map]
      exact List.map_congr_left fun s hs => valueTy_at (hl s hs)
    have hin : ∀ s ∈ (V n).srcs, s ∈ order := fun s hs => (srcs_in_order hto hn hs).1
    have hnode : ∀ l : List Nat, (∀ s ∈ l, s ∈ order) →
        DefInv (valueTy (block V order)) X (.node (l.map order.idxOf)) (order.idxOf n) →
        verifyOp (exactOp V order.idxOf n).1 (valueTy (block V order) (order.idxOf n)) (l.map fun s => (exactOp V order.idxOf s).2.1) = true →
        verifyValue (block V order) X (order.idxOf n) = true := by
      intro l hl hdi hv
      obtain ⟨args, h1, h2⟩ := hdi
      simp only [verifyValue, h1, hop, opInfo, h2, hbase l hl]
      exact hv
    cases ho : (V n).op
    case NONE => exact absurd ho (hc n hn).notNone
    case IN =>
      simp only [defOf, ho] at hdi
      rw [ho] at hver
      by_cases hks : (V n).kind = .stream
      · rw [if_pos hks] at hdi
        simp only [DefInv] at hdi
        simpa [verifyValue, hdi, hop, opInfo] using hver
      · rw [if_neg hks] at hdi
        simp only [DefInv] at hdi
        simpa [verifyValue, hdi, hop, opInfo] using hver
    case CONST =>
      simp only [defOf, ho, DefInv] at hdi
      rw [ho] at hver
      simpa [verifyValue, hdi, hop, opInfo] using hver
    case OUT =>
      obtain ⟨s, hs⟩ := (hc n hn).out ho
      have hg : getConnection (V n) = some s := by simp [getConnection, hs]
      simp only [defOf, ho, hg, Option.map_some, DefInv] at hdi
      obtain ⟨s', h1, -⟩ := hdi
      rw [ho] at hver
      simpa [verifyValue, h1, hop, opInfo] using hver
    case OFFSET =>
      obtain ⟨⟨o, hdt⟩, -⟩ := (hc n hn).offset ho
      obtain ⟨a, ha⟩ := (hc n hn).unary (by simp [ho])
      simp only [defOf, ho, ha, hdt, DefInv] at hdi
      rw [ho, ha] at hver
      rcases hdi with ⟨s', h1, -, h2⟩ | h1
      · rw [valueTy_at (hin a (by simp [ha]))] at h2
        simpa [verifyValue, h1, hop, opInfo, h2] using hver
      · simp [verifyValue, h1]
    case MUX =>
      obtain ⟨-, c, alts, he⟩ := (hc n hn).mux ho
      simp only [defOf, ho, he] at hdi
      rw [ho, he] at hver
      refine hnode (c :: alts.reverse) ?_ (by simpa using hdi) (by simpa using hver)
      intro s hs
      exact hin s (by rw [he]; simpa using hs)
    all_goals
      simp only [defOf, ho] at hdi
      rw [ho] at hver
      exact hnode (V n).srcs hin hdi (by simpa using hver)
  · obtain ⟨s, m, h1, -⟩ := hi.fresh v (by rw [progOf_size]; omega) hv
    simp [verifyValue, h1]

end

/-! ### Kernels built through the API -/

section
variable {F : FloatOps} {w : World} {g : KGraph} {G : TopSort.Graph Nat}

/-- **C61.** The block built from a finished kernel passes the dialect's verifier if and only if no `~` or unary `-` is applied to
something that is not a stream of its type, no multiplexer is selected by anything but a stream and no offset is taken of anything but
a stream. -/
theorem api_block_verifies_iff (h : Hist F Proper World.init w) (hf : Finished w g) (he : Enumeration w g G) :
    ∃ order prog, TopSort.topSort G = .ok order ∧ buildBody w.view order = .ok prog ∧
      (verifyBlock prog = true ↔ ∀ n ∈ g.nodes, DialectOK w.view n) := by
  obtain ⟨order, h1, h2, h3, h4, -⟩ := finished_kernel_is_processable h hf he
  refine ⟨order, block w.view order, h1, buildBody_exact w.view order h3 h4, ?_⟩
  rw [block_verifies_iff h4 (fun n => hist_kinds h n) h3]
  exact ⟨fun h n hn => h n (h2.mem_iff.mpr hn), fun h n hn => h n (h2.mem_iff.mp hn)⟩

/-- **C61, after scheduling.** If the block passes the verifier, so does what any scheduling pass makes of it, whatever buffers it
inserts. -/
theorem api_scheduled_verifies (h : Hist F Proper World.init w) (hf : Finished w g) (he : Enumeration w g G)
    (hof : ∀ n ∈ g.nodes, ∀ k, (w.view n).data = .offset k → -(2^31 : Int) ≤ k ∧ k < 2^31) :
    ∃ order prog, TopSort.topSort G = .ok order ∧ buildBody w.view order = .ok prog ∧ (verifyBlock prog = true →
      ∀ bs, (∀ p ∈ bs, p.1 ∈ channels (progOf prog)) → ∀ X, applySchedule (progOf prog) bs = .ok X →
        ∀ v < X.size, verifyValue prog X v = true) := by
  obtain ⟨order, h1, h2, h3, h4, -⟩ := finished_kernel_is_processable h hf he
  refine ⟨order, block w.view order, h1, buildBody_exact w.view order h3 h4, fun hv bs hbs X hX => ?_⟩
  exact scheduled_verifies h4 (fun n => hist_kinds h n) h3 (fun n hn => hof n (h2.mem_iff.mp hn))
    ((block_verifies_iff h4 (fun n => hist_kinds h n) h3).mp hv) hbs hX

/-- The kernels of C58 pass. -/
theorem handled_dialect {V : Nat → NodeV} {L : Nat → Nat} {nodes : List Nat} (H : Handled V L nodes) : ∀ n ∈ nodes, DialectOK V n := by
  intro n hn
  have hs := (H.supp n hn).2
  unfold DialectOK
  cases ho : (V n).op <;> rw [ho] at hs <;> simp only <;> try trivial
  · exact fun c alts he => (hs c alts he).1
  · exact fun s hm => ⟨(hs.2.2 s hm).2, (hs.2.2 s hm).1⟩

end

/-! ### Kernels that are rejected -/

/-- `y = ~s` for a scalar input `s`: every call succeeds and the kernel passes the checks, but not the verifier. -/
def exScalarNot : List Cmd := [.input true "s" u8t, .un .NOT 0, .output false "y" u8t, .connect 2 1]

/-- `y = c ? ...` selected by a scalar input. -/
def exScalarMux : List Cmd := [.input true "s" u8t, .input false "x" u8t, .mux 0 [1, 1], .output false "y" u8t, .connect 3 2]

theorem exScalarNot_rejected (F : FloatOps) : ∃ w g prog, World.init.run F exScalarNot = .ok w ∧ w.stack = [g] ∧ w.check g = true ∧
    buildBody w.view [0, 1, 2] = .ok prog ∧ verifyBlock prog = false := ⟨_, _, _, rfl, rfl, rfl, rfl, rfl⟩

theorem exScalarMux_rejected (F : FloatOps) : ∃ w g prog, World.init.run F exScalarMux = .ok w ∧ w.stack = [g] ∧ w.check g = true ∧
    buildBody w.view [0, 1, 2, 3] = .ok prog ∧ verifyBlock prog = false := ⟨_, _, _, rfl, rfl, rfl, rfl, rfl⟩

/-- Non-vacuity: the example kernel of C58 passes. -/
example (F : FloatOps) : ∀ n ∈ exGraph.nodes, DialectOK (after F exCmds).view n := handled_dialect (ex_handled F fun _ => 0)

end Verif.Flow
