import Verif.Flow.Struct
/-
C24, form of the translation: operation `i` of the block is the operation of the `i`-th node of the processing order, with that node's
operator, type, kind of variable, name and operands.
-/
namespace Verif.Flow
open Verif.Dfcxx

/-! ### Specification -/

/-- The wrapper standing for a kind of variable. -/
inductive Wraps : VarKind → DWrap → Prop where
  | stream : Wraps .stream .stream
  | scalar : Wraps .scalar .scalar
  | const (c : Word) : Wraps (.const c) .const

/-- `d` is the `i`-th operation with a result among the statements. -/
inductive OpAt : Nat → DStmt → List DStmt → Prop where
  | here {k ty attr os rest} : OpAt 0 (.op k ty attr os) (.op k ty attr os :: rest)
  | op {i d k ty attr os rest} : OpAt i d rest → OpAt (i + 1) d (.op k ty attr os :: rest)
  | connect {i d a b rest} : OpAt i d rest → OpAt i d (.connect a b :: rest)

/-- The operation of node `n` when value `j` of the block stands for `order[j]`. -/
structure Shape (V : Nat → NodeV) (order : List Nat) (n : Nat) (k : DKind) (ty : DTy) (attr : DAttr) (operands : List Nat) : Prop where
  sameOp : k.meaning = (V n).op
  stream : k = .input ∨ k = .output → (V n).kind = .stream
  scalar : k = .scalarInput ∨ k = .scalarOutput → (V n).kind ≠ .stream
  sameTy : ty.ty = (V n).ty
  wrap : (V n).op ≠ .OFFSET → Wraps (V n).kind ty.wrap
  wrapOffset : (V n).op = .OFFSET → ∀ s ∈ (V n).srcs, Wraps (V s).kind ty.wrap
  name : (V n).op = .IN ∨ (V n).op = .OUT → attr = .name (V n).name
  reads : (V n).op ≠ .OUT → (V n).op ≠ .MUX → (V n).op ≠ .CONST → List.Forall₂ (fun j m => order[j]? = some m) operands (V n).srcs
  muxReads : (V n).op = .MUX → ∃ c alts, (V n).srcs = c :: alts ∧
    List.Forall₂ (fun j m => order[j]? = some m) operands (c :: alts.reverse)
  noReads : (V n).op = .OUT ∨ (V n).op = .CONST → operands = []

/-! ### Proof -/

theorem wraps_convTy (v : NodeV) : Wraps v.kind (convTy v).wrap := by
  unfold convTy
  cases v.kind with
  | stream => exact .stream
  | scalar => exact .scalar
  | const c => exact .const c

theorem convTy_ty' (v : NodeV) : (convTy v).ty = v.ty := by unfold convTy; cases v.kind <;> rfl

theorem forall2_idx {order : List Nat} : ∀ l : List Nat, (∀ m ∈ l, m ∈ order) →
    List.Forall₂ (fun j m => order[j]? = some m) (l.map order.idxOf) l
  | [], _ => .nil
  | m :: l, h => .cons (getElem?_idxOf (h m (by simp))) (forall2_idx l fun x hx => h x (by simp [hx]))

theorem shape_exact (V : Nat → NodeV) {order : List Nat} {n : Nat} (hc : Complete V n) (hs : ∀ m ∈ (V n).srcs, m ∈ order) :
    Shape V order n (exactOp V order.idxOf n).1 (exactOp V order.idxOf n).2.1 (exactOp V order.idxOf n).2.2.1
      (exactOp V order.idxOf n).2.2.2 := by
  have hf := forall2_idx _ hs
  have bin : ∀ k, binaryKind (V n).op = some k → k.meaning = (V n).op → (V n).op ≠ .OFFSET → (V n).op ≠ .IN → (V n).op ≠ .OUT →
      (V n).op ≠ .MUX → (V n).op ≠ .CONST → k ≠ .input → k ≠ .output → k ≠ .scalarInput → k ≠ .scalarOutput →
      Shape V order n (exactOp V order.idxOf n).1 (exactOp V order.idxOf n).2.1 (exactOp V order.idxOf n).2.2.1
      (exactOp V order.idxOf n).2.2.2 := by
    intro k hk hm h1 h2 h3 h4 h9 h5 h6 h7 h8
    have e : exactOp V order.idxOf n = (k, convTy (V n), .none, (V n).srcs.map order.idxOf) := by simp [exactOp, hk]
    rw [e]
    exact ⟨hm, by simp [h5, h6], by simp [h7, h8], convTy_ty' _, fun _ => wraps_convTy _, fun h => absurd h h1, by simp [h2, h3],
      fun _ _ _ => hf, fun h => absurd h h4, fun h => h.elim (absurd · h3) (absurd · h9)⟩
  have una : ∀ k attr a, binaryKind (V n).op = none → unaryKind (V n) = some (k, attr) → (V n).srcs = [a] → k.meaning = (V n).op →
      (V n).op ≠ .IN → (V n).op ≠ .OUT →
      (V n).op ≠ .MUX → (V n).op ≠ .CONST → k ≠ .input → k ≠ .output → k ≠ .scalarInput → k ≠ .scalarOutput →
      Shape V order n (exactOp V order.idxOf n).1 (exactOp V order.idxOf n).2.1 (exactOp V order.idxOf n).2.2.1
      (exactOp V order.idxOf n).2.2.2 := by
    intro k attr a hb hk ha hm h2 h3 h4 h9 h5 h6 h7 h8
    have e : exactOp V order.idxOf n =
        (k, if (V n).op = .OFFSET then convTy (V a) else convTy (V n), attr, (V n).srcs.map order.idxOf) := by simp [exactOp, hb, hk, ha]
    rw [e]
    refine ⟨hm, by simp [h5, h6], by simp [h7, h8], ?_, ?_, ?_, by simp [h2, h3], fun _ _ _ => hf, fun h => absurd h h4, fun h => h.elim (absurd · h3) (absurd · h9)⟩
    · dsimp only
      split
      · rename_i ho
        rw [convTy_ty', ← (hc.offset ho).2 a (by simp [ha])]
      · exact convTy_ty' _
    · intro ho; dsimp only; rw [if_neg ho]; exact wraps_convTy _
    · intro ho s hs'
      dsimp only
      rw [ha] at hs'
      rw [if_pos ho, List.mem_singleton.mp hs']; exact wraps_convTy _
  have hbin := hc.binary
  have hun := hc.unary
  have hmux := hc.mux
  have hcon := hc.const
  have hsh := hc.shift
  have hbi := hc.bits
  have hof := hc.offset
  cases ho : (V n).op
  case NONE => exact absurd ho hc.notNone
  case IN =>
    have hi := hc.input ho
    have e : exactOp V order.idxOf n = (if (V n).kind = .stream then .input else .scalarInput, convTy (V n), .name (V n).name, []) := by
      simp [exactOp, ho, binaryKind, unaryKind]
    rw [e]
    refine ⟨?_, ?_, ?_, convTy_ty' _, fun _ => wraps_convTy _, by simp [ho], fun _ => rfl, ?_, by simp [ho], by simp [ho]⟩
    · rw [ho]; dsimp only; split <;> rfl
    · dsimp only; split <;> simp [*]
    · dsimp only; split <;> simp [*]
    · intro _ _ _; simp [NodeV.srcs, hi]
  case OUT =>
    have e : exactOp V order.idxOf n = (if (V n).kind = .stream then .output else .scalarOutput, convTy (V n), .name (V n).name, []) := by
      simp [exactOp, ho, binaryKind, unaryKind]
    rw [e]
    refine ⟨?_, ?_, ?_, convTy_ty' _, fun _ => wraps_convTy _, by simp [ho], fun _ => rfl, by simp [ho], by simp [ho], fun _ => rfl⟩
    · rw [ho]; dsimp only; split <;> rfl
    · dsimp only; split <;> simp [*]
    · dsimp only; split <;> simp [*]
  case CONST =>
    obtain ⟨c, hk⟩ := hcon ho
    have e : exactOp V order.idxOf n = (.constant, convTy (V n), .const (V n).ty.totalBits (constBits (V n).ty c), []) := by
      simp [exactOp, ho, binaryKind, unaryKind, hk]
    rw [e]
    refine ⟨by rw [ho]; rfl, by simp, by simp, convTy_ty' _, fun _ => wraps_convTy _, by simp [ho], by simp [ho], by simp [ho], by simp [ho], fun _ => rfl⟩
  case MUX =>
    obtain ⟨hd, c, alts, he⟩ := hmux ho
    have e : exactOp V order.idxOf n = (.mux, convTy (V n), .none, order.idxOf c :: (alts.map order.idxOf).reverse) := by
      simp [exactOp, ho, binaryKind, unaryKind, he]
    rw [e]
    refine ⟨by rw [ho]; rfl, by simp, by simp, convTy_ty' _, fun _ => wraps_convTy _, by simp [ho], by simp [ho], by simp [ho],
      fun _ => ⟨c, alts, he, ?_⟩, by simp [ho]⟩
    have := forall2_idx (order := order) (c :: alts.reverse) (by
      intro m hm
      apply hs
      rw [he]
      simpa using hm)
    simpa [List.map_reverse] using this
  case OFFSET =>
    obtain ⟨⟨o, hd⟩, -⟩ := hof ho
    obtain ⟨a, ha⟩ := hun (by simp [ho])
    exact una .offset (.ints [o]) a (by simp [ho, binaryKind]) (by simp [unaryKind, ho, hd]) ha (by rw [ho]; rfl) (by simp [ho]) (by simp [ho]) (by simp [ho]) (by simp [ho]) nofun nofun nofun nofun
  case SHL =>
    obtain ⟨k, hd⟩ := hsh (by simp [ho])
    obtain ⟨a, ha⟩ := hun (by simp [ho])
    exact una .shl (.ints [k]) a (by simp [ho, binaryKind]) (by simp [unaryKind, ho, hd]) ha (by rw [ho]; rfl) (by simp [ho]) (by simp [ho]) (by simp [ho]) (by simp [ho]) nofun nofun nofun nofun
  case SHR =>
    obtain ⟨k, hd⟩ := hsh (by simp [ho])
    obtain ⟨a, ha⟩ := hun (by simp [ho])
    exact una .shr (.ints [k]) a (by simp [ho, binaryKind]) (by simp [unaryKind, ho, hd]) ha (by rw [ho]; rfl) (by simp [ho]) (by simp [ho]) (by simp [ho]) (by simp [ho]) nofun nofun nofun nofun
  case BITS =>
    obtain ⟨l, r, hd⟩ := hbi ho
    obtain ⟨a, ha⟩ := hun (by simp [ho])
    exact una .bits (.ints [l, r]) a (by simp [ho, binaryKind]) (by simp [unaryKind, ho, hd]) ha (by rw [ho]; rfl) (by simp [ho]) (by simp [ho]) (by simp [ho]) (by simp [ho]) nofun nofun nofun nofun
  case NOT =>
    obtain ⟨a, ha⟩ := hun (by simp [ho])
    exact una .not .none a (by simp [ho, binaryKind]) (by simp [unaryKind, ho]) ha (by rw [ho]; rfl) (by simp [ho]) (by simp [ho]) (by simp [ho]) (by simp [ho]) nofun nofun nofun nofun
  case NEG =>
    obtain ⟨a, ha⟩ := hun (by simp [ho])
    exact una .neg .none a (by simp [ho, binaryKind]) (by simp [unaryKind, ho]) ha (by rw [ho]; rfl) (by simp [ho]) (by simp [ho]) (by simp [ho]) (by simp [ho]) nofun nofun nofun nofun
  case CAST =>
    obtain ⟨a, ha⟩ := hun (by simp [ho])
    exact una .cast .none a (by simp [ho, binaryKind]) (by simp [unaryKind, ho]) ha (by rw [ho]; rfl) (by simp [ho]) (by simp [ho]) (by simp [ho]) (by simp [ho]) nofun nofun nofun nofun
  all_goals
    exact bin _ (by rw [ho]; rfl) (by rw [ho]; rfl) (by simp [ho]) (by simp [ho]) (by simp [ho]) (by simp [ho]) (by simp [ho]) (by nofun) (by nofun) (by nofun) (by nofun)

theorem opAt_flatMap (V : Nat → NodeV) (idx : Nat → Nat) : ∀ (l : List Nat) (i n : Nat), l[i]? = some n →
    OpAt i (exactStmt V idx n) (l.flatMap (exactStmts V idx))
  | [], i, n, h => by simp at h
  | m :: l, i, n, h => by
    have skip : ∀ {j d}, OpAt j d (l.flatMap (exactStmts V idx)) → OpAt (j + 1) d ((m :: l).flatMap (exactStmts V idx)) := by
      intro j d hd
      rw [List.flatMap_cons]
      unfold exactStmts exactStmt at hd ⊢
      cases getConnection (V m) with
      | none => exact .op hd
      | some s => exact .op (.connect hd)
    cases i with
    | zero =>
      simp only [List.getElem?_cons_zero, Option.some.injEq] at h
      subst h
      rw [List.flatMap_cons]
      exact .here
    | succ i =>
      simp only [List.getElem?_cons_succ] at h
      exact skip (opAt_flatMap V idx l i n h)

/-- **C24, form.**  The block has one operation per node, in processing order, each with the node's operator, type, kind of variable, name
and operands; an output is connected to the value of its source, and there are no other connections. -/
theorem translation_shape (V : Nat → NodeV) (order : List Nat) (hto : TopoOrder V order) (hc : ∀ n ∈ order, Complete V n) :
    ∃ prog, buildBody V order = .ok prog ∧
      (∀ i n, order[i]? = some n → ∃ k ty attr operands, OpAt i (.op k ty attr operands) prog ∧ Shape V order n k ty attr operands) ∧
      (∀ i j, DStmt.connect i j ∈ prog ↔ ∃ n s, order[i]? = some n ∧ order[j]? = some s ∧ (V n).ins = [(s, true)]) := by
  have hsrc : ∀ n ∈ order, ∀ m ∈ (V n).srcs, m ∈ order := fun n hn m hm => (before_idx hto.nodup (hto.before n hn m hm)).2.1
  refine ⟨_, buildBody_exact V order hto hc, fun i n hi => ?_, fun i j => ?_⟩
  · have hn := List.mem_of_getElem? hi
    exact ⟨_, _, _, _, opAt_flatMap V _ order i n hi, shape_exact V (hc n hn) (hsrc n hn)⟩
  · have hg : ∀ v : NodeV, ∀ s, getConnection v = some s ↔ v.ins = [(s, true)] := by
      intro v s
      unfold getConnection
      split
      · rename_i x hx; rw [hx]; simp
      · rename_i hx
        constructor
        · intro h; cases h
        · intro h; exact absurd h (hx s)
    constructor
    · intro h
      obtain ⟨n, hn, h⟩ := List.mem_flatMap.mp h
      unfold exactStmts exactStmt at h
      cases hgn : getConnection (V n) with
      | none => simp [hgn] at h
      | some s =>
        simp only [hgn, List.mem_cons, reduceCtorEq, false_or, DStmt.connect.injEq, List.not_mem_nil, or_false] at h
        obtain ⟨rfl, rfl⟩ := h
        have e := (hg _ _).mp hgn
        exact ⟨n, s, getElem?_idxOf hn, getElem?_idxOf (hsrc n hn s (by simp [NodeV.srcs, e])), e⟩
    · rintro ⟨n, s, h1, h2, h3⟩
      have hn := List.mem_of_getElem? h1
      refine List.mem_flatMap.mpr ⟨n, hn, ?_⟩
      unfold exactStmts
      rw [(hg _ _).mpr h3]
      simp [idxOf_getElem? hto.nodup h1, idxOf_getElem? hto.nodup h2]

/-- A kernel with a scalar input meeting the hypotheses: `out = a + s` where `s` is a scalar. -/
def scalarV : Nat → NodeV
  | 0 => ⟨.IN, .none, .fixed false 8 0, .stream, "a", []⟩
  | 1 => ⟨.IN, .none, .fixed false 8 0, .scalar, "s", []⟩
  | 2 => ⟨.ADD, .none, .fixed false 8 0, .stream, "", [(0, false), (1, false)]⟩
  | _ => ⟨.OUT, .none, .fixed false 8 0, .stream, "out", [(2, true)]⟩

example : TopoOrder scalarV [1, 0, 2, 3] ∧ (∀ n ∈ [1, 0, 2, 3], Complete scalarV n) := by
  refine ⟨⟨by decide, ?_⟩, ?_⟩
  · intro n hn m hm
    simp only [List.mem_cons, List.not_mem_nil, or_false] at hn
    rcases hn with rfl | rfl | rfl | rfl <;> simp [scalarV, NodeV.srcs] at hm
    · rcases hm with rfl | rfl
      · exact ⟨[1], [], [3], rfl⟩
      · exact ⟨[], [0], [3], rfl⟩
    · subst hm; exact ⟨[1, 0], [], [], rfl⟩
  · intro n hn
    simp only [List.mem_cons, List.not_mem_nil, or_false] at hn
    rcases hn with rfl | rfl | rfl | rfl <;> constructor <;> simp [scalarV, NodeV.srcs]

end Verif.Flow
