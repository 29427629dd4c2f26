import Verif.Dfcxx.DfcirSpec
import Verif.Dfcxx.SimLemmas
import Mathlib.Tactic.Tauto
/- C24: the translation to DFCIR preserves the computed function. -/
namespace Verif.Dfcxx

theorem muxOperands_zero (c : Nat) (alts : List Nat) : muxOperands (c :: alts) 0 = alts.reverse := by
  unfold muxOperands
  simp only [List.length_cons, List.range_succ, List.filterMap_append, List.filterMap_cons, List.filterMap_nil]
  have h0 : alts.length + 1 - 1 - alts.length = 0 := by omega
  simp only [h0, ne_eq, not_true_eq_false, if_false, List.append_nil]
  apply List.ext_getElem?
  intro i
  by_cases hi : i < alts.length
  · have key : ∀ (m : Nat), m ≤ alts.length → (List.range m).filterMap (fun i =>
        if ¬ (alts.length + 1 - 1 - i) = 0 then (c :: alts)[alts.length + 1 - 1 - i]? else none) =
        (List.range m).map (fun i => alts.getD (alts.length - 1 - i) 0) := by
      intro m hm
      induction m with
      | zero => rfl
      | succ j ih =>
        have e : alts.length + 1 - 1 - j = (alts.length - 1 - j) + 1 := by omega
        have e2 : alts.length - 1 - j < alts.length := by omega
        rw [List.range_succ, List.filterMap_append, List.map_append, ih (by omega)]
        congr 1
        simp only [List.filterMap_cons, List.filterMap_nil, List.map_cons, List.map_nil, e]
        simp [e2]
    rw [key _ (Nat.le_refl _)]
    have e2 : alts.length - 1 - i < alts.length := by omega
    simp [hi, List.getElem?_reverse, e2]
  · have : ∀ l : List Nat, l.length ≤ alts.length → l[i]? = none := by
      intro l hl; exact List.getElem?_eq_none (by omega)
    rw [this alts.reverse (by simp), this _]
    exact (List.length_filterMap_le _ _).trans (by simp)

/-- The builder's state after the nodes `pre`. -/
structure DInv (s : DState) (pre : List Nat) : Prop where
  next : s.next = pre.length
  map : ∀ m i, pre[i]? = some m → s.map m = some i

theorem get_of_mem {s : DState} {pre : List Nat} (h : DInv s pre) {m : Nat} (hm : m ∈ pre) :
    ∃ i, s.get m = .ok i ∧ pre[i]? = some m ∧ i < pre.length := by
  obtain ⟨i, hi, he⟩ := List.getElem_of_mem hm
  have hs : pre[i]? = some m := by rw [List.getElem?_eq_getElem hi, he]
  exact ⟨i, by simp [DState.get, h.map m i hs], hs, hi⟩

theorem mapM_get {s : DState} {pre : List Nat} (h : DInv s pre) : ∀ (l : List Nat), (∀ m ∈ l, m ∈ pre) →
    ∃ ids, l.mapM s.get = .ok ids ∧ List.Forall₂ (fun m i => pre[i]? = some m ∧ i < pre.length) l ids
  | [], _ => ⟨[], rfl, .nil⟩
  | m :: l, hl => by
    obtain ⟨i, h1, h2, h3⟩ := get_of_mem h (hl m (by simp))
    obtain ⟨ids, h4, h5⟩ := mapM_get h l (fun x hx => hl x (by simp [hx]))
    refine ⟨i :: ids, ?_, .cons ⟨h2, h3⟩ h5⟩
    simp [List.mapM_cons, h1, h4]; rfl

theorem forall2_getElem? {β γ : Type} {R : β → γ → Prop} {l : List β} {l' : List γ} (h : List.Forall₂ R l l') (k : Nat) :
    (∀ a, l[k]? = some a → ∃ b, l'[k]? = some b ∧ R a b) ∧ (∀ b, l'[k]? = some b → ∃ a, l[k]? = some a ∧ R a b) := by
  induction h generalizing k with
  | nil => simp
  | cons hab _ ih =>
    cases k with
    | zero => simpa using hab
    | succ k => simpa using ih k

theorem forall2_reverse {β γ : Type} {R : β → γ → Prop} {l : List β} {l' : List γ} (h : List.Forall₂ R l l') :
    List.Forall₂ R l.reverse l'.reverse := by
  induction h with
  | nil => exact .nil
  | cons hab _ ih =>
    rw [List.reverse_cons, List.reverse_cons]
    clear * - hab ih
    generalize hl : List.reverse _ = l at ih
    rename_i l1 l2
    generalize l2.reverse = l' at ih
    clear hl
    induction ih with
    | nil => exact .cons hab .nil
    | cons h _ ih => exact .cons h ih

/-- What the translation of one node gives. -/
theorem nodeStmt_ok (V : Nat → NodeV) (s : DState) (pre : List Nat) (n : Nat) (h : DInv s pre) (hc : Complete V n)
    (hsrc : ∀ m ∈ (V n).srcs, m ∈ pre) :
    ∃ k ty attr operands, nodeStmt V s n = .ok (.op k ty attr operands) ∧ k.meaning = (V n).op ∧
      (∀ o ∈ operands, o < pre.length) ∧
      ((V n).op ≠ .OUT → ∀ {α : Type} (I : Interp α) (ρ : Nat → α) (env : Nat → α) ,
        (∀ i m, (pre ++ [n])[i]? = some m → env i = ρ m) →
        (NodeEq I V ρ n ↔ StmtEq I env pre.length (.op k ty attr operands))) := by
  have hn : ∀ {α : Type} (ρ env : Nat → α), (∀ i m, (pre ++ [n])[i]? = some m → env i = ρ m) → env pre.length = ρ n := by
    intro α ρ env he
    exact he _ _ (by simp)
  have hpre : ∀ {α : Type} (ρ env : Nat → α), (∀ i m, (pre ++ [n])[i]? = some m → env i = ρ m) →
      ∀ {i m}, pre[i]? = some m → env i = ρ m := by
    intro α ρ env he i m hi
    apply he
    rw [List.getElem?_append_left]
    · exact hi
    · exact (List.getElem?_eq_some_iff.mp hi).1
  unfold nodeStmt
  by_cases hb : (V n).op ∈ [OpType.ADD, .SUB, .MUL, .DIV, .AND, .OR, .XOR, .LESS, .LESSEQ, .GREATER, .GREATEREQ, .EQ, .NEQ, .CAT]
  · obtain ⟨a, b, hab⟩ := hc.binary hb
    obtain ⟨i, hi1, hi2, hi3⟩ := get_of_mem h (hsrc a (by simp [hab]))
    obtain ⟨j, hj1, hj2, hj3⟩ := get_of_mem h (hsrc b (by simp [hab]))
    have hex : ∃ k, binaryKind (V n).op = some k ∧ k.meaning = (V n).op := by
      revert hb
      cases (V n).op <;> simp [binaryKind, DKind.meaning]
    obtain ⟨k, hk, hm⟩ := hex
    refine ⟨k, convTy (V n), .none, [i, j], ?_, hm, by simp [hi3, hj3], ?_⟩
    · simp [hk, insAt, hab, hi1, hj1, bind, Except.bind, pure, Except.pure]
    · intro _ α I ρ env he
      have hT : (convTy (V n)).ty = (V n).ty := by cases hkk : (V n).kind <;> simp [convTy, hkk]
      have e1 := hpre ρ env he hi2
      have e2 := hpre ρ env he hj2
      have e3 := hn ρ env he
      have hop : ∃ o, (V n).op = o := ⟨_, rfl⟩
      obtain ⟨o, ho⟩ := hop
      unfold NodeEq StmtEq
      simp only [hm]
      rw [ho] at hb ⊢
      revert hb
      cases o <;> simp [DAttr.params, hab, e1, e2, e3, hT]
  · have hbk : binaryKind (V n).op = none := by
      revert hb
      cases (V n).op <;> simp [binaryKind]
    simp only [hbk]
    by_cases hu : (V n).op ∈ [OpType.NOT, .NEG, .CAST, .OFFSET, .SHL, .SHR, .BITS]
    · obtain ⟨a, ha⟩ := hc.unary hu
      obtain ⟨i, hi1, hi2, hi3⟩ := get_of_mem h (hsrc a (by simp [ha]))
      have hex : ∃ k attr, unaryKind (V n) = some (k, attr) ∧ k.meaning = (V n).op ∧
          attr.params = (match (V n).op with | .OFFSET | .SHL | .SHR | .BITS => paramsOf (V n).data | _ => []) := by
        have h1 := hc.offset; have h2 := hc.shift; have h3 := hc.bits
        unfold unaryKind
        cases ho : (V n).op <;> simp [ho] at hu h1 h2 h3 ⊢ <;> try (simp [DKind.meaning, DAttr.params]; done)
        · obtain ⟨⟨o, h1⟩, _⟩ := h1; simp [h1, DKind.meaning, DAttr.params, paramsOf]
        · obtain ⟨o, h2⟩ := h2; simp [h2, DKind.meaning, DAttr.params, paramsOf]
        · obtain ⟨o, h2⟩ := h2; simp [h2, DKind.meaning, DAttr.params, paramsOf]
        · obtain ⟨l, r, h3⟩ := h3; simp [h3, DKind.meaning, DAttr.params, paramsOf]
      obtain ⟨k, attr, hk, hm, hp⟩ := hex
      refine ⟨k, if (V n).op = .OFFSET then convTy (V a) else convTy (V n), attr, [i], ?_, hm, by simp [hi3], ?_⟩
      · simp [hk, insAt, ha, hi1, bind, Except.bind, pure, Except.pure]
      · intro _ α I ρ env he
        have hT : (if (V n).op = .OFFSET then convTy (V a) else convTy (V n)).ty = (V n).ty := by
          split
          · rename_i ho
            rw [← (hc.offset ho).2 a (by simp [ha])]
            cases hkk : (V a).kind <;> simp [convTy, hkk]
          · cases hkk : (V n).kind <;> simp [convTy, hkk]
        have e1 := hpre ρ env he hi2
        have e3 := hn ρ env he
        unfold NodeEq StmtEq
        simp only [hm, hT, hp, e3, List.map_cons, List.map_nil, ha, e1]
        cases ho : (V n).op <;> simp [ho] at hu <;> simp
    · have huk : unaryKind (V n) = none := by
        unfold unaryKind
        revert hu
        cases ho : (V n).op <;> simp
      simp only [huk]
      have hT : (convTy (V n)).ty = (V n).ty := by cases hkk : (V n).kind <;> simp [convTy, hkk]
      cases ho : (V n).op <;> simp [ho] at hb hu
      · exact absurd ho hc.notNone
      · -- IN
        refine ⟨if (V n).kind = .stream then .input else .scalarInput, _, _, [], rfl, ?_, by simp, ?_⟩
        · split <;> rfl
        · intro _ α I ρ env he
          have hm : (if (V n).kind = VarKind.stream then DKind.input else DKind.scalarInput).meaning = .IN := by split <;> rfl
          simp [NodeEq, StmtEq, ho, hm, hn ρ env he]
      · -- OUT
        refine ⟨if (V n).kind = .stream then .output else .scalarOutput, _, _, [], rfl, ?_, by simp, ?_⟩
        · split <;> rfl
        · intro hne; exact absurd rfl hne
      · -- CONST
        obtain ⟨c, hc'⟩ := hc.const ho
        refine ⟨.constant, convTy (V n), .const (V n).ty.totalBits (constBits (V n).ty c), [], ?_, rfl, by simp, ?_⟩
        · simp [hc']; rfl
        · intro _ α I ρ env he
          simp only [NodeEq, StmtEq, ho, DKind.meaning, hn ρ env he, hc', hT]
          constructor
          · intro h w v hwv
            simp only [DAttr.const.injEq] at hwv
            rw [← hwv.2]; exact h c rfl
          · intro h c' hcc
            cases hcc
            exact h _ _ rfl
      · -- MUX
        obtain ⟨hd, c, alts, hs⟩ := hc.mux ho
        obtain ⟨i, hi1, hi2, hi3⟩ := get_of_mem h (hsrc c (by simp [hs]))
        obtain ⟨ids, hids, hf⟩ := mapM_get h alts.reverse (fun m hm => hsrc m (by simp [hs]; right; simpa using hm))
        refine ⟨.mux, convTy (V n), .none, i :: ids, ?_, rfl, ?_, ?_⟩
        · simp [hd, insAt, hs, hi1, muxOperands_zero, hids, bind, Except.bind, pure, Except.pure]
        · intro o ho'
          simp only [List.mem_cons] at ho'
          rcases ho' with rfl | ho'
          · exact hi3
          · obtain ⟨k, hk⟩ := List.getElem?_of_mem ho'
            obtain ⟨m, _, hm⟩ := (forall2_getElem? hf k).2 o hk
            exact hm.2
        · intro _ α I ρ env he
          have hf' := forall2_reverse hf
          rw [List.reverse_reverse] at hf'
          have e1 := hpre ρ env he hi2
          have e3 := hn ρ env he
          simp only [NodeEq, StmtEq, ho, DKind.meaning, hs, List.cons.injEq]
          constructor
          · rintro hN c' vars ⟨rfl, rfl⟩ a ha
            rw [e1] at ha
            obtain ⟨m, hm, hmi⟩ := (forall2_getElem? hf' _).2 a ha
            rw [e3, hpre ρ env he hmi.1]
            exact hN c alts ⟨rfl, rfl⟩ m hm
          · rintro hS c' alts' ⟨rfl, rfl⟩ a ha
            obtain ⟨j, hj, hji⟩ := (forall2_getElem? hf' _).1 a ha
            rw [← e3, ← hpre ρ env he hji.1]
            refine hS i ids ⟨rfl, rfl⟩ j ?_
            rw [e1]; exact hj

theorem holds_append {α : Type} (I : Interp α) (env : Nat → α) : ∀ (i : Nat) (a b : List DStmt),
    Holds I env i (a ++ b) ↔ Holds I env i a ∧ Holds I env (i + (a.filter fun s => match s with | .op .. => true | _ => false).length) b
  | i, [], b => by simp [Holds]
  | i, .connect d s :: a, b => by
    simp only [List.cons_append, Holds, holds_append I env i a b, List.filter_cons, Bool.false_eq_true, if_false]
    tauto
  | i, .op k ty at' os :: a, b => by
    simp only [List.cons_append, Holds, holds_append I env (i + 1) a b, List.filter_cons, if_true, List.length_cons]
    rw [Nat.add_right_comm, Nat.add_assoc i]
    tauto

/-- One call of `translate`. -/
theorem translate_ok (V : Nat → NodeV) (s : DState) (pre : List Nat) (n : Nat) (h : DInv s pre) (hc : Complete V n)
    (hn : n ∉ pre) (hsrc : ∀ m ∈ (V n).srcs, m ∈ pre) :
    ∃ s' new, translate V s n = .ok s' ∧ s'.out = new.reverse ++ s.out ∧ DInv s' (pre ++ [n]) ∧
      (∀ rest, SsaOK pre.length (new ++ rest) ↔ SsaOK (pre.length + 1) rest) ∧
      (∀ {α : Type} (I : Interp α) (ρ env : Nat → α), (∀ i m, (pre ++ [n])[i]? = some m → env i = ρ m) →
        ∀ rest, Holds I env pre.length (new ++ rest) ↔ NodeEq I V ρ n ∧ Holds I env (pre.length + 1) rest) := by
  obtain ⟨k, ty, attr, operands, hst, hm, hops, heq⟩ := nodeStmt_ok V s pre n h hc hsrc
  have hinv : ∀ out, DInv ⟨out, s.next + 1, fun m => if m = n then some s.next else s.map m⟩ (pre ++ [n]) := by
    intro out
    refine ⟨by simp [h.next], ?_⟩
    intro m i hi
    by_cases hlt : i < pre.length
    · rw [List.getElem?_append_left hlt] at hi
      have hmp : m ∈ pre := List.mem_of_getElem? hi
      have hne : m ≠ n := fun e => hn (e ▸ hmp)
      simp [hne, h.map m i hi]
    · rw [List.getElem?_append_right (by omega)] at hi
      have h0 : i - pre.length = 0 := by
        by_contra hne
        rw [List.getElem?_eq_none (by simp; omega)] at hi
        simp at hi
      have e : i = pre.length := by omega
      rw [h0] at hi
      simp at hi
      subst hi
      simp [e, h.next]
  by_cases ho : (V n).op = .OUT
  · obtain ⟨src, hins⟩ := hc.out ho
    have hsr : (V n).srcs = [src] := by simp [NodeV.srcs, hins]
    obtain ⟨i, hi1, hi2, hi3⟩ := get_of_mem h (hsrc src (by simp [hsr]))
    have hg : getConnection (V n) = some src := by simp [getConnection, hins]
    have hne : src ≠ n := fun e => hn (e ▸ hsrc src (by simp [hsr]))
    have hi1' : s.map src = some i := h.map _ _ hi2
    refine ⟨⟨.connect s.next i :: .op k ty attr operands :: s.out, s.next + 1,
      fun m => if m = n then some s.next else s.map m⟩, [.op k ty attr operands, .connect s.next i], ?_, by simp, hinv _, ?_, ?_⟩
    · simp [translate, hst, hg, DState.get, hne, hi1', bind, Except.bind, pure, Except.pure]
    · intro rest
      have h1 : s.next < pre.length + 1 := by rw [h.next]; omega
      have h2 : i < pre.length + 1 := by omega
      simp [SsaOK, hops, h1, h2]
      intro _ o ho'; exact hops o ho'
    · intro α I ρ env he rest
      have e3 : env s.next = ρ n := by rw [h.next]; exact he _ _ (by simp)
      have e1 : env i = ρ src := he _ _ (by rw [List.getElem?_append_left hi3]; exact hi2)
      have hs : StmtEq I env pre.length (.op k ty attr operands) := by simp [StmtEq, hm, ho]
      simp only [List.cons_append, List.nil_append, Holds, hs, true_and]
      have h1 : StmtEq I env (pre.length + 1) (.connect s.next i) ↔ NodeEq I V ρ n := by
        simp only [StmtEq, e3, e1, NodeEq, ho, hsr, List.cons.injEq, and_true]
        constructor
        · rintro h1 s rfl; exact h1
        · intro h1; exact h1 _ rfl
      rw [h1]
  · have hg : getConnection (V n) = none := by
      unfold getConnection
      have hfl := hc.flags ho
      split
      · rename_i src heq'
        have := hfl (src, true) (by rw [heq']; simp)
        simp at this
      · rfl
    refine ⟨⟨.op k ty attr operands :: s.out, s.next + 1, fun m => if m = n then some s.next else s.map m⟩,
      [.op k ty attr operands], ?_, by simp, hinv _, ?_, ?_⟩
    · simp [translate, hst, hg, bind, Except.bind, pure, Except.pure]
    · intro rest
      simp [SsaOK]
      intro _ o ho'; exact hops o ho'
    · intro α I ρ env he rest
      simp only [List.cons_append, List.nil_append, Holds]
      rw [heq ho I ρ env he]

theorem buildFrom_ok (V : Nat → NodeV) : ∀ (rest pre : List Nat) (s : DState), DInv s pre → (pre ++ rest).Nodup →
    (∀ n ∈ rest, Complete V n) →
    (∀ p n q, rest = p ++ n :: q → ∀ m ∈ (V n).srcs, m ∈ pre ++ p) →
    ∃ s' new, buildFrom V s rest = .ok s' ∧ s'.out = new.reverse ++ s.out ∧ SsaOK pre.length new ∧
      (∀ {α : Type} (I : Interp α) (ρ env : Nat → α), (∀ i m, (pre ++ rest)[i]? = some m → env i = ρ m) →
        (Holds I env pre.length new ↔ ∀ n ∈ rest, NodeEq I V ρ n))
  | [], pre, s, h, _, _, _ => ⟨s, [], rfl, by simp, trivial, by intros; simp [Holds]⟩
  | n :: rest, pre, s, h, hnd, hc, hsrc => by
    have hnp : n ∉ pre := by
      intro hm
      have := List.nodup_append.mp hnd
      exact this.2.2 n hm n (by simp) rfl
    obtain ⟨s1, new1, ht, ho1, hi1, hssa1, hh1⟩ := translate_ok V s pre n h (hc n (by simp)) hnp
      (by have := hsrc [] n rest rfl; simpa using this)
    obtain ⟨s2, new2, hb, ho2, hssa2, hh2⟩ := buildFrom_ok V rest (pre ++ [n]) s1 hi1 (by simpa using hnd)
      (fun m hm => hc m (by simp [hm]))
      (by
        intro p m q hpq x hx
        have := hsrc (n :: p) m q (by simp [hpq]) x hx
        simpa using this)
    refine ⟨s2, new1 ++ new2, ?_, by simp [ho2, ho1], ?_, ?_⟩
    · simp [buildFrom, ht, hb, bind, Except.bind]
    · rw [hssa1]; simpa using hssa2
    · intro α I ρ env he
      rw [hh1 I ρ env (by
        intro i m hi
        apply he
        have hlt : i < (pre ++ [n]).length := (List.getElem?_eq_some_iff.mp hi).1
        have : pre ++ n :: rest = (pre ++ [n]) ++ rest := by simp
        rw [this, List.getElem?_append_left hlt]; exact hi) new2]
      have := hh2 I ρ env (by simpa using he)
      simp only [List.length_append, List.length_cons, List.length_nil] at this
      rw [this]
      simp

/-- **C24.** For every finished graph and every valid processing order, the translation succeeds; each operand refers to an
earlier operation; and for every interpretation of the operators, node values satisfy the graph's equations exactly when the
corresponding SSA values (value `i` belongs to the `i`-th node of the order) satisfy the equations of the created operations,
multiplexers and connections included. -/
theorem translation_preserves (V : Nat → NodeV) (order : List Nat) (hto : TopoOrder V order)
    (hc : ∀ n ∈ order, Complete V n) :
    ∃ prog, buildBody V order = .ok prog ∧ SsaOK 0 prog ∧
      ∀ {α : Type} (I : Interp α) (ρ env : Nat → α), (∀ i m, order[i]? = some m → env i = ρ m) →
        (Holds I env 0 prog ↔ ∀ n ∈ order, NodeEq I V ρ n) := by
  obtain ⟨s', new, hb, ho, hssa, hh⟩ := buildFrom_ok V order [] .init ⟨rfl, by simp⟩ (by simpa using hto.nodup) hc
    (by
      intro p n q hpq m hm
      obtain ⟨l1, l2, l3, hl⟩ := hto.before n (by rw [hpq]; simp) m hm
      simp only [List.nil_append]
      have hnd := hto.nodup
      rw [hpq] at hl hnd
      -- `n` occurs once
      have hp : p = l1 ++ m :: l2 := by
        have e : p ++ n :: q = (l1 ++ m :: l2) ++ n :: l3 := by simpa using hl
        have hn1 : n ∉ p := by
          intro hm'; exact (List.nodup_append.mp hnd).2.2 n hm' n (by simp) rfl
        have hn2 : n ∉ l1 ++ m :: l2 := by
          rw [e] at hnd
          intro hm'; exact (List.nodup_append.mp hnd).2.2 n hm' n (by simp) rfl
        exact (List.append_inj' e (by
          have hlen := congrArg (List.takeWhile (fun x => decide (x ≠ n))) e
          have tw : ∀ (a b : List Nat), n ∉ a → (a ++ n :: b).takeWhile (fun x => decide (x ≠ n)) = a := by
            intro a b ha
            induction a with
            | nil => simp
            | cons x a ih =>
              have hx : x ≠ n := fun e => ha (by simp [e])
              simp only [List.cons_append, List.takeWhile_cons, hx, ne_eq, not_false_eq_true, decide_true, if_true]
              rw [ih (fun h => ha (by simp [h]))]
          rw [tw _ _ hn1, tw _ _ hn2] at hlen
          have hl2 := congrArg List.length e
          rw [hlen] at hl2
          simp at hl2 ⊢
          omega)).1
      rw [hp]; simp)
  refine ⟨new, ?_, hssa, ?_⟩
  · rw [buildBody, hb]
    show Except.ok s'.out.reverse = _
    rw [ho]; simp [DState.init]
  · intro α I ρ env he
    exact hh I ρ env (by simpa using he)

/-- **C24, rejection.** A shallow variable that was never connected cannot be translated: if the order reaches it, the builder
stops on an assertion, and no order containing one yields a program. -/
theorem undefined_variable_not_translated (V : Nat → NodeV) (order : List Nat) (n : Nat) (hn : n ∈ order)
    (ho : (V n).op = .NONE) : ∀ prog, buildBody V order ≠ .ok prog := by
  have hT : ∀ s, translate V s n = .error .assertFail := by
    intro s
    simp [translate, nodeStmt, ho, binaryKind, unaryKind, bind, Except.bind]
  have key : ∀ (l : List Nat) (s : DState), n ∈ l → ∀ s', buildFrom V s l ≠ .ok s' := by
    intro l
    induction l with
    | nil => intro s h; simp at h
    | cons m l ih =>
      intro s hm s'
      simp only [buildFrom, bind, Except.bind]
      cases hm' : translate V s m with
      | error e => simp
      | ok s1 =>
        simp only
        rcases List.mem_cons.mp hm with rfl | hm
        · rw [hT] at hm'; cases hm'
        · exact ih s1 hm s'
  intro prog hp
  simp only [buildBody, bind, Except.bind] at hp
  cases hb : buildFrom V .init order with
  | error e => rw [hb] at hp; cases hp
  | ok s' => exact key order .init hn s' hb

/-- `out = mux(c, a, b - a)` with inputs `c`, `a`, `b`. -/
def demoV : Nat → NodeV
  | 0 => ⟨.IN, .none, .fixed false 1 0, .stream, "c", []⟩
  | 1 => ⟨.IN, .none, .fixed false 8 0, .stream, "a", []⟩
  | 2 => ⟨.IN, .none, .fixed false 8 0, .stream, "b", []⟩
  | 3 => ⟨.SUB, .none, .fixed false 8 0, .stream, "", [(2, false), (1, false)]⟩
  | 4 => ⟨.MUX, .muxId 0, .fixed false 8 0, .stream, "", [(0, false), (1, false), (3, false)]⟩
  | _ => ⟨.OUT, .none, .fixed false 8 0, .stream, "out", [(4, true)]⟩

example : buildBody demoV [2, 1, 3, 0, 4, 5] = .ok [
    .op .input ⟨.stream, .fixed false 8 0⟩ (.name "b") [], .op .input ⟨.stream, .fixed false 8 0⟩ (.name "a") [],
    .op .sub ⟨.stream, .fixed false 8 0⟩ .none [0, 1], .op .input ⟨.stream, .fixed false 1 0⟩ (.name "c") [],
    .op .mux ⟨.stream, .fixed false 8 0⟩ .none [3, 2, 1], .op .output ⟨.stream, .fixed false 8 0⟩ (.name "out") [],
    .connect 5 4] := by rfl

example : ∀ n ∈ [2, 1, 3, 0, 4, 5], Complete demoV n := by
  intro n hn
  simp only [List.mem_cons, List.not_mem_nil, or_false] at hn
  rcases hn with rfl | rfl | rfl | rfl | rfl | rfl <;> constructor <;> simp [demoV, NodeV.srcs]

/-- Finding: an output connected twice loses its connection in the translation (`getConnection` wants exactly one input): the
created output has no driver, while the simulator outputs the first source. -/
theorem doubly_connected_output_undriven :
    let V : Nat → NodeV := fun n => match n with
      | 0 => ⟨.IN, .none, .fixed false 8 0, .stream, "a", []⟩
      | 1 => ⟨.IN, .none, .fixed false 8 0, .stream, "b", []⟩
      | _ => ⟨.OUT, .none, .fixed false 8 0, .stream, "out", [(0, true), (1, true)]⟩
    (∃ prog, buildBody V [0, 1, 2] = .ok prog ∧ ∀ d s, DStmt.connect d s ∉ prog) ∧
      ∀ F inp v w, processOp F (V 2) inp [v, w] = .val v := by
  refine ⟨⟨_, rfl, ?_⟩, ?_⟩
  · intro d s h
    simp [DState.init] at h
  · intro F inp v w
    rfl

end Verif.Dfcxx
