import Verif.Flow.Model
import Verif.Dfcxx.DfcirProps
import Verif.Sched.Spec
/-
The block the builder creates, written out: value `i` is the operation of the `i`-th node of the order.
-/
namespace Verif.Flow
open Verif.Dfcxx

/-- The operation of a node, with `idx` giving the value numbers of nodes. -/
def exactOp (V : Nat → NodeV) (idx : Nat → Nat) (n : Nat) : DKind × DTy × DAttr × List Nat :=
  let v := V n
  match binaryKind v.op with
  | some k => (k, convTy v, .none, v.srcs.map idx)
  | none => match unaryKind v with
    | some (k, attr) =>
      (k, (match v.srcs with | [s] => if v.op = .OFFSET then convTy (V s) else convTy v | _ => convTy v), attr, v.srcs.map idx)
    | none => match v.op with
      | .IN => (if v.kind = .stream then .input else .scalarInput, convTy v, .name v.name, [])
      | .OUT => (if v.kind = .stream then .output else .scalarOutput, convTy v, .name v.name, [])
      | .CONST => match v.kind with
        | .const c => (.constant, convTy v, .const v.ty.totalBits (constBits v.ty c), [])
        | _ => (.constant, convTy v, .none, [])
      | _ => match v.srcs with
        | c :: alts => (.mux, convTy v, .none, idx c :: (alts.map idx).reverse)
        | [] => (.mux, convTy v, .none, [])

def exactStmt (V : Nat → NodeV) (idx : Nat → Nat) (n : Nat) : DStmt :=
  .op (exactOp V idx n).1 (exactOp V idx n).2.1 (exactOp V idx n).2.2.1 (exactOp V idx n).2.2.2

/-- The operation and, for an output, its connection. -/
def exactStmts (V : Nat → NodeV) (idx : Nat → Nat) (n : Nat) : List DStmt :=
  exactStmt V idx n :: match getConnection (V n) with
    | some s => [.connect (idx n) (idx s)]
    | none => []

theorem mapM_ok {s : DState} {idx : Nat → Nat} : ∀ (l : List Nat), (∀ m ∈ l, s.get m = .ok (idx m)) →
    l.mapM s.get = .ok (l.map idx)
  | [], _ => rfl
  | m :: l, h => by
    have h1 := h m (by simp)
    have h2 := mapM_ok l fun x hx => h x (by simp [hx])
    simp [List.mapM_cons, h1, h2]; rfl

theorem nodeStmt_exact (V : Nat → NodeV) (s : DState) (idx : Nat → Nat) (n : Nat) (hc : Complete V n)
    (hsrc : ∀ m ∈ (V n).srcs, s.get m = .ok (idx m)) : nodeStmt V s n = .ok (exactStmt V idx n) := by
  have bin : ∀ k a b, binaryKind (V n).op = some k → (V n).srcs = [a, b] → nodeStmt V s n = .ok (exactStmt V idx n) := by
    intro k a b hk he
    have ha := hsrc a (by simp [he])
    have hb := hsrc b (by simp [he])
    simp [nodeStmt, exactStmt, exactOp, hk, insAt, he, ha, hb, bind, Except.bind, pure, Except.pure]
  have una : ∀ p a, binaryKind (V n).op = none → unaryKind (V n) = some p → (V n).srcs = [a] →
      nodeStmt V s n = .ok (exactStmt V idx n) := by
    rintro ⟨k, attr⟩ a hk hu he
    have ha := hsrc a (by simp [he])
    simp [nodeStmt, exactStmt, exactOp, hk, hu, insAt, he, ha, bind, Except.bind, pure, Except.pure]
  have hbin := hc.binary
  have hun := hc.unary
  have hmux := hc.mux
  have hcon := hc.const
  have hsh := hc.shift
  have hbi := hc.bits
  have hof := hc.offset
  cases ho : (V n).op
  case NONE => exact absurd ho hc.notNone
  case IN => simp [nodeStmt, exactStmt, exactOp, ho, binaryKind, unaryKind, pure, Except.pure]
  case OUT => simp [nodeStmt, exactStmt, exactOp, ho, binaryKind, unaryKind, pure, Except.pure]
  case CONST =>
    obtain ⟨c, hk⟩ := hcon ho
    simp [nodeStmt, exactStmt, exactOp, ho, hk, binaryKind, unaryKind, pure, Except.pure]
  case MUX =>
    obtain ⟨hd, c, alts, he⟩ := hmux ho
    have h1 : s.get c = .ok (idx c) := hsrc c (by simp [he])
    have h2 := mapM_ok (s := s) (idx := idx) alts.reverse (fun m hm => hsrc m (by
      rw [he]; exact List.mem_cons_of_mem _ (List.mem_reverse.mp hm)))
    have h3 : muxOperands (V n).srcs 0 = alts.reverse := by rw [he]; exact muxOperands_zero c alts
    have hia : insAt (V n) 0 = .ok c := by simp [insAt, he]
    simp only [nodeStmt, ho, binaryKind, unaryKind, hd, hia, h1, h3, h2, bind, Except.bind, pure, Except.pure]
    simp [exactStmt, exactOp, ho, binaryKind, unaryKind, he]
  case OFFSET =>
    obtain ⟨⟨o, hd⟩, -⟩ := hof ho
    obtain ⟨a, ha⟩ := hun (by simp [ho])
    exact una (.offset, .ints [o]) a (by simp [ho, binaryKind]) (by simp [unaryKind, ho, hd]) ha
  case SHL =>
    obtain ⟨k, hd⟩ := hsh (by simp [ho])
    obtain ⟨a, ha⟩ := hun (by simp [ho])
    exact una (.shl, .ints [k]) a (by simp [ho, binaryKind]) (by simp [unaryKind, ho, hd]) ha
  case SHR =>
    obtain ⟨k, hd⟩ := hsh (by simp [ho])
    obtain ⟨a, ha⟩ := hun (by simp [ho])
    exact una (.shr, .ints [k]) a (by simp [ho, binaryKind]) (by simp [unaryKind, ho, hd]) ha
  case BITS =>
    obtain ⟨l, r, hd⟩ := hbi ho
    obtain ⟨a, ha⟩ := hun (by simp [ho])
    exact una (.bits, .ints [l, r]) a (by simp [ho, binaryKind]) (by simp [unaryKind, ho, hd]) ha
  case NOT =>
    obtain ⟨a, ha⟩ := hun (by simp [ho])
    exact una (.not, .none) a (by simp [ho, binaryKind]) (by simp [unaryKind, ho]) ha
  case NEG =>
    obtain ⟨a, ha⟩ := hun (by simp [ho])
    exact una (.neg, .none) a (by simp [ho, binaryKind]) (by simp [unaryKind, ho]) ha
  case CAST =>
    obtain ⟨a, ha⟩ := hun (by simp [ho])
    exact una (.cast, .none) a (by simp [ho, binaryKind]) (by simp [unaryKind, ho]) ha
  all_goals
    obtain ⟨a, b, he⟩ := hbin (by simp [ho])
    exact bin _ a b (by rw [ho]; rfl) he

theorem buildFrom_exact (V : Nat → NodeV) (idx : Nat → Nat) : ∀ (rest pre : List Nat) (s : DState), DInv s pre →
    (pre ++ rest).Nodup → (∀ i m, (pre ++ rest)[i]? = some m → idx m = i) → (∀ n ∈ rest, Complete V n) →
    (∀ p n q, rest = p ++ n :: q → ∀ m ∈ (V n).srcs, m ∈ pre ++ p) →
    ∃ s', buildFrom V s rest = .ok s' ∧ s'.out = (rest.flatMap (exactStmts V idx)).reverse ++ s.out
  | [], pre, s, h, _, _, _, _ => ⟨s, rfl, by simp⟩
  | n :: rest, pre, s, h, hnd, hidx, hc, hsrc => by
    have hnp : n ∉ pre := by
      intro hm
      have := List.nodup_append.mp hnd
      exact this.2.2 n hm n (by simp) rfl
    have hget : ∀ m ∈ pre, s.map m = some (idx m) := by
      intro m hm
      obtain ⟨i, -, h2, h3⟩ := get_of_mem h hm
      rw [h.map m i h2, hidx i m (by rw [List.getElem?_append_left h3]; exact h2)]
    have hn0 := hsrc [] n rest rfl
    simp only [List.append_nil] at hn0
    have hst := nodeStmt_exact V s idx n (hc n (by simp)) (fun m hm => by simp [DState.get, hget m (hn0 m hm)])
    have hidn : idx n = s.next := by rw [h.next]; exact hidx _ _ (by simp)
    have hinv : ∀ out, DInv ⟨out, s.next + 1, fun m => if m = n then some s.next else s.map m⟩ (pre ++ [n]) := by
      intro out
      refine ⟨by simp [h.next], ?_⟩
      intro m i hi
      have hi' : (pre ++ n :: rest)[i]? = some m := by
        have hlt : i < (pre ++ [n]).length := (List.getElem?_eq_some_iff.mp hi).1
        have : pre ++ n :: rest = (pre ++ [n]) ++ rest := by simp
        rw [this, List.getElem?_append_left hlt]; exact hi
      have e := hidx i m hi'
      by_cases hm : m = n
      · subst hm; simp only [if_true]; rw [← hidn, e]
      · have : m ∈ pre := by
          have := List.mem_of_getElem? hi
          simp [hm] at this; exact this
        simp only [if_neg hm]; rw [hget m this, e]
    have key : ∃ s1, translate V s n = .ok s1 ∧ s1.out = (exactStmts V idx n).reverse ++ s.out ∧ DInv s1 (pre ++ [n]) := by
      cases hg : getConnection (V n) with
      | none =>
        refine ⟨_, ?_, ?_, hinv (exactStmt V idx n :: s.out)⟩
        · simp [translate, hst, hg, bind, Except.bind, pure, Except.pure]
        · simp [exactStmts, hg]
      | some src =>
        have hm : src ∈ (V n).srcs := by
          unfold getConnection at hg
          split at hg
          · rename_i x hx; cases hg; simp [NodeV.srcs, hx]
          · cases hg
        have hsp := hn0 src hm
        have hne : src ≠ n := fun e => hnp (e ▸ hsp)
        refine ⟨_, ?_, ?_, hinv (.connect (idx n) (idx src) :: exactStmt V idx n :: s.out)⟩
        · simp [translate, hst, hg, DState.get, hne, hget src hsp, hidn, bind, Except.bind, pure, Except.pure]
        · simp [exactStmts, hg]
    obtain ⟨s1, ht, ho1, hi1⟩ := key
    obtain ⟨s2, hb, ho2⟩ := buildFrom_exact V idx rest (pre ++ [n]) s1 hi1 (by simpa using hnd) (by simpa using hidx)
      (fun m hm => hc m (by simp [hm]))
      (by
        intro p m q hpq x hx
        have := hsrc (n :: p) m q (by simp [hpq]) x hx
        simpa using this)
    refine ⟨s2, ?_, by simp [ho2, ho1]⟩
    simp [buildFrom, ht, hb, bind, Except.bind]

theorem idxOf_getElem? {order : List Nat} (hnd : order.Nodup) {i m : Nat} (h : order[i]? = some m) : order.idxOf m = i := by
  obtain ⟨hi, rfl⟩ := List.getElem?_eq_some_iff.mp h
  exact List.Nodup.idxOf_getElem hnd i hi

theorem getElem?_idxOf {order : List Nat} {m : Nat} (h : m ∈ order) : order[order.idxOf m]? = some m := by
  have hl := List.idxOf_lt_length_iff.mpr h
  rw [List.getElem?_eq_getElem hl, List.getElem_idxOf hl]

theorem before_idx {order : List Nat} (hnd : order.Nodup) {a b : Nat} (h : TopSort.Before order a b) :
    order.idxOf a < order.idxOf b ∧ a ∈ order ∧ b ∈ order := by
  obtain ⟨l1, l2, l3, rfl⟩ := h
  refine ⟨?_, by simp, by simp⟩
  rw [idxOf_getElem? hnd (i := l1.length) (m := a) (by simp),
    idxOf_getElem? hnd (i := l1.length + l2.length + 1) (m := b) (by
      rw [List.getElem?_append_right (by simp; omega)]; simp [Nat.add_assoc])]
  omega

/-- The block, written out. -/
theorem buildBody_exact (V : Nat → NodeV) (order : List Nat) (hto : TopoOrder V order) (hc : ∀ n ∈ order, Complete V n) :
    buildBody V order = .ok (order.flatMap (exactStmts V order.idxOf)) := by
  obtain ⟨s', hb, ho⟩ := buildFrom_exact V order.idxOf order [] .init ⟨rfl, by simp⟩ (by simpa using hto.nodup)
    (by intro i m h; exact idxOf_getElem? hto.nodup (by simpa using h)) hc
    (by
      intro p n q hpq m hm
      obtain ⟨h1, h2, h3⟩ := before_idx hto.nodup (hto.before n (by rw [hpq]; simp) m hm)
      simp only [List.nil_append]
      have h4 : order.idxOf n = p.length := idxOf_getElem? hto.nodup (by rw [hpq]; simp)
      rw [h4] at h1
      have h5 := getElem?_idxOf h2
      rw [hpq] at h1 h5
      rw [List.getElem?_append_left h1] at h5
      exact List.mem_of_getElem? h5)
  rw [buildBody, hb]
  show Except.ok s'.out.reverse = _
  rw [ho]; simp [DState.init]

end Verif.Flow
