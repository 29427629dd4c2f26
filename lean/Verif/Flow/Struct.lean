import Verif.Flow.Build
import Verif.Sched.RunExists
import Mathlib.Data.List.Nodup
/-
The block of a graph as the scheduler sees it, and the streams of the graph as streams of the block.
-/
namespace Verif.Flow
open Verif.Dfcxx

/-- The operation of a node. -/
def opInfo (V : Nat → NodeV) (idx : Nat → Nat) (n : Nat) : OpInfo :=
  ⟨(exactOp V idx n).1, (exactOp V idx n).2.1.ty, (exactOp V idx n).2.2.1, (exactOp V idx n).2.2.2⟩

/-- The block of a graph for a processing order. -/
def block (V : Nat → NodeV) (order : List Nat) : List DStmt := order.flatMap (exactStmts V order.idxOf)

theorem opsOf_append (a b : List DStmt) : opsOf (a ++ b) = opsOf a ++ opsOf b := by simp [opsOf, List.filterMap_append]

theorem opsOf_exact (V : Nat → NodeV) (idx : Nat → Nat) (n : Nat) : opsOf (exactStmts V idx n) = [opInfo V idx n] := by
  unfold exactStmts exactStmt
  cases hg : getConnection (V n) <;> simp [opsOf, opInfo]

theorem opsOf_flatMap (V : Nat → NodeV) (idx : Nat → Nat) : ∀ l : List Nat,
    opsOf (l.flatMap (exactStmts V idx)) = l.map (opInfo V idx)
  | [] => rfl
  | n :: l => by
    rw [List.flatMap_cons, opsOf_append, opsOf_exact, opsOf_flatMap V idx l]; rfl

theorem connectedTo_flatMap (V : Nat → NodeV) (idx : Nat → Nat) (n : Nat) : ∀ l : List Nat,
    (∀ m ∈ l, idx m = idx n → m = n) →
    connectedTo (l.flatMap (exactStmts V idx)) (idx n) = if n ∈ l then (getConnection (V n)).map idx else none
  | [], _ => rfl
  | m :: l, h => by
    have ih := connectedTo_flatMap V idx n l fun x hx => h x (by simp [hx])
    unfold connectedTo at ih ⊢
    rw [List.flatMap_cons, List.findSome?_append, ih]
    by_cases hm : m = n
    · subst hm
      cases hg : getConnection (V m) <;> simp [exactStmts, exactStmt, hg]
    · have hi : idx m ≠ idx n := fun e => hm (h m (by simp) e)
      have hnm : ¬ n = m := fun e => hm e.symm
      cases hg : getConnection (V m) <;> simp [exactStmts, exactStmt, hg, hi, hnm]

theorem idxOf_inj {order : List Nat} {m n : Nat} (hm : m ∈ order) (h : order.idxOf m = order.idxOf n) : m = n := by
  have h1 := getElem?_idxOf hm
  by_cases hn : n ∈ order
  · rw [h, getElem?_idxOf hn] at h1; exact (Option.some.inj h1).symm
  · rw [h, List.idxOf_eq_length hn] at h1; simp at h1

/-- The operation of a node as the scheduler sees it. -/
def defOf (V : Nat → NodeV) (idx : Nat → Nat) (n : Nat) : Sched.Def :=
  match (V n).op with
  | .IN => if (V n).kind = .stream then .stream else .scalar
  | .CONST => .const
  | .OUT => .output ((getConnection (V n)).map idx)
  | .OFFSET => match (V n).srcs, (V n).data with
    | [s], .offset k => .offset (idx s) k
    | _, _ => .erased
  | .MUX => match (V n).srcs with
    | c :: alts => .node (idx c :: (alts.map idx).reverse)
    | [] => .node []
  | _ => .node ((V n).srcs.map idx)

theorem progOf_size (V : Nat → NodeV) (order : List Nat) : (progOf (block V order)).size = order.length := by
  simp [progOf, block, opsOf_flatMap]

theorem ops_at (V : Nat → NodeV) {order : List Nat} {n : Nat} (hn : n ∈ order) :
    (opsOf (block V order))[order.idxOf n]? = some (opInfo V order.idxOf n) := by
  simp [block, opsOf_flatMap, getElem?_idxOf hn]

theorem progOf_defn (V : Nat → NodeV) {order : List Nat} {n : Nat} (hn : n ∈ order) (hc : Complete V n) :
    (progOf (block V order)).defn (order.idxOf n) = defOf V order.idxOf n := by
  have hconn := connectedTo_flatMap V order.idxOf n order (fun m hm h => idxOf_inj hm h)
  rw [if_pos hn] at hconn
  have hun := hc.unary
  have hmux := hc.mux
  have hcon := hc.const
  have hsh := hc.shift
  have hbi := hc.bits
  have hof := hc.offset
  simp only [progOf, ops_at V hn, opInfo]
  change connectedTo (block V order) _ = _ at hconn
  rw [hconn]
  cases ho : (V n).op
  case NONE => exact absurd ho hc.notNone
  case IN =>
    by_cases hk : (V n).kind = .stream <;> simp [exactOp, defOf, ho, binaryKind, unaryKind, hk]
  case OUT =>
    by_cases hk : (V n).kind = .stream <;> simp [exactOp, defOf, ho, binaryKind, unaryKind, hk]
  case CONST =>
    obtain ⟨c, hk⟩ := hcon ho
    simp [exactOp, defOf, ho, binaryKind, unaryKind, hk]
  case MUX =>
    obtain ⟨hd, c, alts, he⟩ := hmux ho
    simp [exactOp, defOf, ho, binaryKind, unaryKind, he]
  case OFFSET =>
    obtain ⟨⟨o, hd⟩, -⟩ := hof ho
    obtain ⟨a, ha⟩ := hun (by simp [ho])
    simp [exactOp, defOf, ho, binaryKind, unaryKind, ha, hd]
  case SHL =>
    obtain ⟨k, hd⟩ := hsh (by simp [ho])
    simp [exactOp, defOf, ho, binaryKind, unaryKind, hd]
  case SHR =>
    obtain ⟨k, hd⟩ := hsh (by simp [ho])
    simp [exactOp, defOf, ho, binaryKind, unaryKind, hd]
  case BITS =>
    obtain ⟨l, r, hd⟩ := hbi ho
    simp [exactOp, defOf, ho, binaryKind, unaryKind, hd]
  all_goals simp [exactOp, defOf, ho, binaryKind, unaryKind]

theorem opTy_at (V : Nat → NodeV) {order : List Nat} {n : Nat} (hn : n ∈ order) (hc : Complete V n) :
    opTy (opsOf (block V order)) (order.idxOf n) = (V n).ty := by
  have hcv : ∀ v : NodeV, (convTy v).ty = v.ty := by intro v; unfold convTy; cases v.kind <;> rfl
  simp only [opTy, ops_at V hn, opInfo]
  have hun := hc.unary
  have hof := hc.offset
  have hsh := hc.shift
  have hbi := hc.bits
  have hcon := hc.const
  have hmux := hc.mux
  cases ho : (V n).op
  case OFFSET =>
    obtain ⟨⟨o, hd⟩, ht⟩ := hof ho
    obtain ⟨a, ha⟩ := hun (by simp [ho])
    simp [exactOp, ho, binaryKind, unaryKind, ha, hd, hcv, ht a]
  case SHL =>
    obtain ⟨k, hd⟩ := hsh (by simp [ho])
    obtain ⟨a, ha⟩ := hun (by simp [ho])
    simp [exactOp, ho, binaryKind, unaryKind, hd, hcv, ha]
  case SHR =>
    obtain ⟨k, hd⟩ := hsh (by simp [ho])
    obtain ⟨a, ha⟩ := hun (by simp [ho])
    simp [exactOp, ho, binaryKind, unaryKind, hd, hcv, ha]
  case BITS =>
    obtain ⟨l, r, hd⟩ := hbi ho
    obtain ⟨a, ha⟩ := hun (by simp [ho])
    simp [exactOp, ho, binaryKind, unaryKind, hd, hcv, ha]
  case CONST =>
    obtain ⟨c, hk⟩ := hcon ho
    simp [exactOp, ho, binaryKind, unaryKind, hk, hcv]
  case MUX =>
    obtain ⟨hd, c, alts, he⟩ := hmux ho
    simp [exactOp, ho, binaryKind, unaryKind, he, hcv]
  case NONE => exact absurd ho hc.notNone
  case NOT =>
    obtain ⟨a, ha⟩ := hun (by simp [ho])
    simp [exactOp, ho, binaryKind, unaryKind, hcv, ha]
  case NEG =>
    obtain ⟨a, ha⟩ := hun (by simp [ho])
    simp [exactOp, ho, binaryKind, unaryKind, hcv, ha]
  case CAST =>
    obtain ⟨a, ha⟩ := hun (by simp [ho])
    simp [exactOp, ho, binaryKind, unaryKind, hcv, ha]
  all_goals simp [exactOp, ho, binaryKind, unaryKind, hcv]

/-- Values are nodes. -/
theorem value_is_node {order : List Nat} (hnd : order.Nodup) {v : Nat} (hv : v < order.length) :
    order[v] ∈ order ∧ order.idxOf order[v] = v :=
  ⟨List.getElem_mem hv, List.Nodup.idxOf_getElem hnd v hv⟩

theorem defOf_refs {V : Nat → NodeV} {idx : Nat → Nat} {n : Nat} (hc : Complete V n) {r : Nat} (hr : r ∈ (defOf V idx n).refs) :
    ∃ m ∈ (V n).srcs, r = idx m := by
  have gen : ∀ r, r ∈ (Sched.Def.node ((V n).srcs.map idx)).refs → ∃ m ∈ (V n).srcs, r = idx m := by
    intro r hr
    obtain ⟨m, hm, rfl⟩ := List.mem_map.mp hr
    exact ⟨m, hm, rfl⟩
  have hout := hc.out
  have hmux := hc.mux
  have hun := hc.unary
  have hof := hc.offset
  unfold defOf at hr
  cases ho : (V n).op
  case IN => rw [ho] at hr; by_cases hk : (V n).kind = .stream <;> simp [hk, Sched.Def.refs] at hr
  case CONST => rw [ho] at hr; simp [Sched.Def.refs] at hr
  case OUT =>
    obtain ⟨s, hs⟩ := hout ho
    rw [ho] at hr; simp [getConnection, hs, Sched.Def.refs] at hr
    exact ⟨s, by simp [NodeV.srcs, hs], hr⟩
  case OFFSET =>
    obtain ⟨⟨o, hd⟩, -⟩ := hof ho
    obtain ⟨a, ha⟩ := hun (by simp [ho])
    rw [ho] at hr; simp [hd, ha, Sched.Def.refs] at hr
    exact ⟨a, by simp [ha], hr⟩
  case MUX =>
    obtain ⟨hd, c, alts, he⟩ := hmux ho
    rw [ho] at hr; simp only [he, Sched.Def.refs, List.mem_cons, List.mem_reverse, List.mem_map] at hr
    rcases hr with rfl | ⟨m, hm, rfl⟩
    · exact ⟨c, by simp [he], rfl⟩
    · exact ⟨m, by simp [he, hm], rfl⟩
  all_goals rw [ho] at hr; exact gen r hr

theorem srcs_in_order {V : Nat → NodeV} {order : List Nat} (hto : TopoOrder V order) {n s : Nat} (hn : n ∈ order)
    (hs : s ∈ (V n).srcs) : s ∈ order ∧ order.idxOf s < order.idxOf n :=
  let h := before_idx hto.nodup (hto.before n hn s hs)
  ⟨h.2.1, h.1⟩

/-- Offsets fit `int32_t` (they are converted to it by the scheduler, DFCIRScheduleUtils.cpp:53). -/
def OffsetsFit (V : Nat → NodeV) (order : List Nat) : Prop :=
  ∀ n ∈ order, ∀ k, (V n).data = .offset k → -(2^31 : Int) ≤ k ∧ k < 2^31

theorem block_wf {V : Nat → NodeV} {order : List Nat} (hto : TopoOrder V order) (hc : ∀ n ∈ order, Complete V n)
    (hof : OffsetsFit V order) : Sched.WF (progOf (block V order)) := by
  have key : ∀ i < (progOf (block V order)).size, ∃ n ∈ order, order.idxOf n = i ∧
      (progOf (block V order)).defn i = defOf V order.idxOf n := by
    intro i hi
    rw [progOf_size] at hi
    obtain ⟨h1, h2⟩ := value_is_node hto.nodup hi
    exact ⟨order[i], h1, h2, by rw [← progOf_defn V h1 (hc _ h1), h2]⟩
  refine ⟨?_, ?_, ?_⟩
  · intro i hi r hr
    obtain ⟨n, hn, rfl, hd⟩ := key i hi
    rw [hd] at hr
    obtain ⟨m, hm, rfl⟩ := defOf_refs (hc n hn) hr
    exact (srcs_in_order hto hn hm).2
  · intro i hi
    obtain ⟨n, hn, rfl, hd⟩ := key i hi
    rw [hd]
    have hcn := hc n hn
    have hun := hcn.unary
    have hofs := hcn.offset
    unfold defOf
    cases ho : (V n).op
    case IN => by_cases hk : (V n).kind = .stream <;> simp [hk]
    case OFFSET =>
      obtain ⟨⟨o, hd⟩, -⟩ := hofs ho
      obtain ⟨a, ha⟩ := hun (by simp [ho])
      simp [ha, hd]
    case MUX => cases (V n).srcs <;> simp
    all_goals simp
  · intro i hi s k hdk
    obtain ⟨n, hn, rfl, hd⟩ := key i hi
    rw [hd] at hdk
    refine hof n hn k ?_
    have hcn := hc n hn
    unfold defOf at hdk
    cases ho : (V n).op
    case IN => rw [ho] at hdk; by_cases hk : (V n).kind = .stream <;> simp [hk] at hdk
    case OFFSET =>
      obtain ⟨⟨o, hd⟩, -⟩ := hcn.offset ho
      obtain ⟨a, ha⟩ := hcn.unary (by simp [ho])
      rw [ho] at hdk
      simp [ha, hd] at hdk
      rw [hd, hdk.2]
    case MUX => rw [ho] at hdk; cases he : (V n).srcs <;> simp [he] at hdk
    all_goals rw [ho] at hdk; simp at hdk

theorem defOf_node {V : Nat → NodeV} {idx : Nat → Nat} {n : Nat} {args : List Nat} (h : defOf V idx n = .node args) :
    (((V n).op = .MUX ∧ ((∃ c alts, (V n).srcs = c :: alts ∧ args = idx c :: (alts.map idx).reverse) ∨ ((V n).srcs = [] ∧ args = []))) ∨
      ((V n).op ∉ [.IN, .CONST, .OUT, .OFFSET, .MUX] ∧ args = (V n).srcs.map idx)) := by
  unfold defOf at h
  cases ho : (V n).op
  case IN => rw [ho] at h; by_cases hk : (V n).kind = .stream <;> simp [hk] at h
  case CONST => rw [ho] at h; simp at h
  case OUT => rw [ho] at h; simp at h
  case OFFSET =>
    rw [ho] at h; simp only at h
    split at h <;> cases h
  case MUX =>
    rw [ho] at h; simp only at h
    left
    refine ⟨rfl, ?_⟩
    split at h
    · rename_i c alts he
      cases h; exact .inl ⟨c, alts, he, rfl⟩
    · rename_i he
      cases h; exact .inr ⟨he, rfl⟩
  all_goals rw [ho] at h; simp at h; subst h; exact .inr ⟨by simp, rfl⟩

theorem block_small {V : Nat → NodeV} {order : List Nat} (hto : TopoOrder V order) (hc : ∀ n ∈ order, Complete V n)
    (h128 : ∀ n ∈ order, (V n).srcs.length ≤ 128 ∨ ∀ s ∈ (V n).srcs.tail, (V s).op = .CONST) :
    Sched.Small (progOf (block V order)) := by
  intro i hi args hd j v hj hv
  rw [progOf_size] at hi
  obtain ⟨h1, h2⟩ := value_is_node hto.nodup hi
  generalize order[i] = n at h1 h2
  rw [← h2, progOf_defn V h1 (hc _ h1)] at hd
  have key : ∃ s ∈ (V n).srcs.tail, v = order.idxOf s ∨ (V n).srcs.length ≤ 128 := by
    rcases defOf_node hd with ⟨-, ⟨c, alts, he, rfl⟩ | ⟨-, rfl⟩⟩ | ⟨-, rfl⟩
    · rw [he]
      obtain ⟨j', rfl⟩ : ∃ j', j = j' + 1 := ⟨j - 1, by omega⟩
      rw [List.getElem?_cons_succ] at hv
      have := List.mem_of_getElem? hv
      rw [List.mem_reverse, List.mem_map] at this
      obtain ⟨s, hs, rfl⟩ := this
      exact ⟨s, hs, .inl rfl⟩
    · simp at hv
    · cases he : (V n).srcs with
      | nil => rw [he] at hv; simp at hv
      | cons c alts =>
        rw [he] at hv
        obtain ⟨j', rfl⟩ : ∃ j', j = j' + 1 := ⟨j - 1, by omega⟩
        rw [List.map_cons, List.getElem?_cons_succ] at hv
        have := List.mem_of_getElem? hv
        rw [List.mem_map] at this
        obtain ⟨s, hs, rfl⟩ := this
        exact ⟨s, hs, .inl rfl⟩
  have hlen : args.length = (V n).srcs.length := by
    rcases defOf_node hd with ⟨-, ⟨c, alts, he, rfl⟩ | ⟨he, rfl⟩⟩ | ⟨-, rfl⟩
    · simp [he]
    · simp [he]
    · simp
  have hjl : j < args.length := by
    by_contra hh
    rw [List.getElem?_eq_none (by omega)] at hv
    cases hv
  rcases h128 n h1 with h | h
  · omega
  obtain ⟨s, hs, h3 | h3⟩ := key
  · have hso := (srcs_in_order hto h1 (List.mem_of_mem_tail hs)).1
    have hcs : (progOf (block V order)).defn v = .const := by
      rw [h3, progOf_defn V hso (hc _ hso)]
      simp [defOf, h s hs]
    simp [Sched.nearestOf, Sched.nearest, hcs, Sched.Def.isConstantInput]
  · omega

/-- No output is read inside the kernel. -/
def OutputsNotRead (V : Nat → NodeV) (order : List Nat) : Prop := ∀ n ∈ order, ∀ s ∈ (V n).srcs, (V s).op ≠ .OUT

theorem block_readOutputs {V : Nat → NodeV} {order : List Nat} (hto : TopoOrder V order) (hc : ∀ n ∈ order, Complete V n)
    (hr : OutputsNotRead V order) {o : Nat} : ¬ Sched.ReadOutput (progOf (block V order)) o := by
  rintro ⟨h1, i, hi, h2⟩
  rw [progOf_size] at hi
  obtain ⟨h3, h4⟩ := value_is_node hto.nodup hi
  rw [← h4, progOf_defn V h3 (hc _ h3)] at h2
  obtain ⟨m, hm, rfl⟩ := defOf_refs (hc _ h3) h2
  have hmo := (srcs_in_order hto h3 hm).1
  rw [progOf_defn V hmo (hc _ hmo)] at h1
  have hno := hr _ h3 m hm
  unfold defOf at h1
  cases ho : (V m).op
  case OUT => exact hno ho
  case IN => rw [ho] at h1; by_cases hk : (V m).kind = .stream <;> simp [hk, Sched.Def.isOutput] at h1
  case OFFSET =>
    rw [ho] at h1; simp only at h1
    split at h1 <;> simp [Sched.Def.isOutput] at h1
  case MUX =>
    rw [ho] at h1; simp only at h1
    split at h1 <;> simp [Sched.Def.isOutput] at h1
  all_goals rw [ho] at h1; simp [Sched.Def.isOutput] at h1

end Verif.Flow
