import Verif.Flow.Props
import Verif.Flow.SimHw
/-
Valuations of kernels without offsets and without signed types: one tick at a time, a value is a width and a bit pattern.  Every valuation
that satisfies the equations of the nodes (C22) gives the streams of C58.
-/
namespace Verif.Flow
open Verif.Dfcxx

/-- A width and a bit pattern. -/
abbrev Pat := Nat × Nat

/-- The parameters of an operator as the data of a node. -/
def dataOf (op : OpType) (ps : List Int) : NodeData :=
  match op, ps with
  | .SHL, [k] | .SHR, [k] => .bitShift k.toNat
  | .BITS, [l, r] => .bitsRange l.toNat r.toNat
  | _, _ => .none

/-- The operators on unsigned patterns; `inp`: what the input ports show. -/
def patInterp (inp : String → Pat) : Interp Pat where
  inp := inp
  cst ty n := (width ty, n % 2 ^ width ty)
  sel x := x.2
  app op ps ty args := (width ty, (opMeaning op (dataOf op ps) ty (args.map fun a => (.rawBits a.1, a.2))).getD 0)

theorem opMeaning_unsigned {op : OpType} {data : NodeData} {ty : DFType} {l : List Nat} {T : Nat → DFType} {x : Nat → Nat}
    (h : ∀ s ∈ l, unsignedTy (T s)) :
    opMeaning op data ty (l.map fun s => (T s, x s)) = opMeaning op data ty (l.map fun s => (.rawBits (width (T s)), x s)) := by
  have hr : ∀ k n, number (.rawBits k) n = n := fun k n => number_unsigned (show unsignedTy (.rawBits k) from rfl) n
  match l, h with
  | [], _ => rfl
  | [a], h =>
    have ha := number_unsigned (h a (by simp))
    cases op <;> first
      | rfl
      | (cases data <;> simp only [List.map_cons, List.map_nil, opMeaning, ha, hr])
  | [a, b], h =>
    have ha := number_unsigned (h a (by simp))
    have hb := number_unsigned (h b (by simp))
    cases op <;> first
      | rfl
      | simp only [List.map_cons, List.map_nil, opMeaning, ha, hb, hr]
  | a :: b :: c :: r, h => cases op <;> cases data <;> rfl

/-! ### Existence -/

/-- The value the equation of a node prescribes. -/
def nodeVal {α : Type} (I : Interp α) (V : Nat → NodeV) (d : Nat → α) (ρ : Nat → α) (n : Nat) : α :=
  match (V n).op with
  | .IN => I.inp (V n).name
  | .CONST => match (V n).kind with
    | .const c => I.cst (V n).ty (constInt (V n).ty c % 2 ^ (V n).ty.totalBits).toNat
    | _ => d n
  | .OUT => match (V n).srcs with
    | [s] => ρ s
    | _ => d n
  | .MUX => match (V n).srcs with
    | c :: alts => match alts[I.sel (ρ c)]? with
      | some a => ρ a
      | none => d n
    | _ => d n
  | op => I.app op (match op with | .OFFSET | .SHL | .SHR | .BITS => paramsOf (V n).data | _ => []) (V n).ty ((V n).srcs.map ρ)

theorem nodeEq_of_val {α : Type} (I : Interp α) (V : Nat → NodeV) (d : Nat → α) (ρ : Nat → α) (n : Nat)
    (h : ρ n = nodeVal I V d ρ n) : NodeEq I V ρ n := by
  unfold nodeVal at h
  unfold NodeEq
  cases ho : (V n).op <;> rw [ho] at h <;> simp only at h ⊢
  case IN => exact h
  case CONST => intro c hc; rw [hc] at h; exact h
  case OUT => intro s hs; rw [hs] at h; exact h
  case MUX => intro c alts hs a ha; rw [hs] at h; simp only [ha] at h; exact h
  all_goals exact h

theorem nodeVal_congr {α : Type} (I : Interp α) (V : Nat → NodeV) (d : Nat → α) {ρ ρ' : Nat → α} {n : Nat}
    (h : ∀ s ∈ (V n).srcs, ρ s = ρ' s) : nodeVal I V d ρ n = nodeVal I V d ρ' n := by
  have hm : (V n).srcs.map ρ = (V n).srcs.map ρ' := List.map_congr_left h
  unfold nodeVal
  cases ho : (V n).op <;> simp only [hm]
  case OUT =>
    match hs : (V n).srcs with
    | [] => rfl
    | [s] => exact h s (by simp [hs])
    | _ :: _ :: _ => rfl
  case MUX =>
    match hs : (V n).srcs with
    | [] => rfl
    | c :: alts =>
      simp only
      rw [h c (by simp [hs])]
      cases ha : alts[I.sel (ρ' c)]? with
      | none => rfl
      | some a => exact h a (by simp [hs, List.mem_of_getElem? ha])

/-- Along a topological order the equations have a solution. -/
theorem exists_solution {α : Type} (I : Interp α) {V : Nat → NodeV} {order : List Nat} (hto : TopoOrder V order) (d : Nat → α) :
    ∃ ρ : Nat → α, ∀ n ∈ order, NodeEq I V ρ n := by
  have key : ∀ k, ∃ ρ : Nat → α, ∀ n ∈ order, order.idxOf n < k → ρ n = nodeVal I V d ρ n := by
    intro k
    induction k with
    | zero => exact ⟨d, fun n _ h => absurd h (by omega)⟩
    | succ k ih =>
      obtain ⟨ρ, hρ⟩ := ih
      by_cases hk : k < order.length
      · obtain ⟨hm, hi⟩ := value_is_node hto.nodup hk
        generalize order[k] = m at hm hi
        refine ⟨Function.update ρ m (nodeVal I V d ρ m), fun n hn hlt => ?_⟩
        have hsame : nodeVal I V d (Function.update ρ m (nodeVal I V d ρ m)) n = nodeVal I V d ρ n := by
          refine nodeVal_congr I V d fun s hs => Function.update_of_ne ?_ _ _
          have := (srcs_in_order hto hn hs).2
          rintro rfl; omega
        rw [hsame]
        by_cases hnm : n = m
        · subst hnm; exact Function.update_self _ _ _
        · rw [Function.update_of_ne hnm]
          refine hρ n hn ?_
          have hne : order.idxOf n ≠ order.idxOf m := by
            intro e
            exact hnm ((List.idxOf_inj hn).mp e)
          omega
      · refine ⟨ρ, fun n hn hlt => hρ n hn ?_⟩
        have := List.idxOf_lt_length_iff.mpr hn
        omega
  obtain ⟨ρ, h⟩ := key order.length
  exact ⟨ρ, fun n hn => nodeEq_of_val I V d ρ n (h n hn (List.idxOf_lt_length_iff.mpr hn))⟩

/-! ### From valuations to streams -/

/-- Nodes of kernels of the kind considered here. -/
structure Plain (V : Nat → NodeV) (n : Nat) : Prop where
  supp : ∀ L, Supported V L n
  uns  : unsignedTy (V n).ty
  noOff : (V n).op ≠ .OFFSET

theorem dataOf_params {V : Nat → NodeV} {n : Nat} (hc : Complete V n) {l : List (DFType × Nat)} :
    opMeaning (V n).op (dataOf (V n).op (match (V n).op with | .OFFSET | .SHL | .SHR | .BITS => paramsOf (V n).data | _ => [])) (V n).ty l =
      opMeaning (V n).op (V n).data (V n).ty l := by
  cases ho : (V n).op
  case SHL => obtain ⟨k, hd⟩ := hc.shift (by simp [ho]); simp [hd, paramsOf, dataOf]
  case SHR => obtain ⟨k, hd⟩ := hc.shift (by simp [ho]); simp [hd, paramsOf, dataOf]
  case BITS => obtain ⟨l, r, hd⟩ := hc.bits ho; simp [hd, paramsOf, dataOf]
  all_goals (match l with
    | [] => simp [opMeaning]
    | [_] => simp [opMeaning]
    | [_, _] => simp [opMeaning]
    | _ :: _ :: _ :: _ => simp [opMeaning])

theorem opMeaning_defined {V : Nat → NodeV} {n : Nat} (hc : Complete V n) (hp : Plain V n)
    (hop : (V n).op ∉ [.IN, .CONST, .OUT, .MUX]) (x : Nat → Nat) :
    ∃ a, opMeaning (V n).op (V n).data (V n).ty ((V n).srcs.map fun s => ((V s).ty, x s)) = some a := by
  have hs := (hp.supp 0).2
  simp only [List.mem_cons, List.not_mem_nil, or_false, not_or] at hop
  cases ho : (V n).op <;> simp only [ho] at hs
  case IN => simp [ho] at hop
  case CONST => simp [ho] at hop
  case OUT => simp [ho] at hop
  case MUX => simp [ho] at hop
  case OFFSET => exact absurd ho hp.noOff
  case SHL =>
    obtain ⟨k, hd⟩ := hc.shift (by simp [ho]); obtain ⟨a, ha⟩ := hc.unary (by simp [ho])
    simp [ha, hd, opMeaning]
  case SHR =>
    obtain ⟨k, hd⟩ := hc.shift (by simp [ho]); obtain ⟨a, ha⟩ := hc.unary (by simp [ho])
    simp [ha, hd, opMeaning]
  case BITS =>
    obtain ⟨l, r, hd⟩ := hc.bits ho; obtain ⟨a, ha⟩ := hc.unary (by simp [ho])
    simp [ha, hd, opMeaning]
  case CAST => obtain ⟨a, ha⟩ := hc.unary (by simp [ho]); simp [ha, opMeaning]
  case NOT => obtain ⟨a, ha⟩ := hc.unary (by simp [ho]); simp [ha, opMeaning]
  all_goals (obtain ⟨a, b, ha⟩ := hc.binary (by simp [ho]); simp [ha, opMeaning])

/-- A valuation that satisfies the equations, with every multiplexer selecting one of its alternatives, is element `t` of the streams. -/
theorem streamVal_of_solution {V : Nat → NodeV} {order : List Nat} (hto : TopoOrder V order) (hc : ∀ n ∈ order, Complete V n)
    (hp : ∀ n ∈ order, Plain V n) {inp : String → Nat → Nat} {I : String → Pat} {t : Nat}
    (hin : ∀ n ∈ order, (V n).op = .IN → I (V n).name = (width (V n).ty, inp (V n).name (if (V n).kind = .stream then t else 0)))
    {ρ : Nat → Pat} (hρ : ∀ n ∈ order, NodeEq (patInterp I) V ρ n)
    (hr : ∀ n ∈ order, (V n).op = .MUX → ∀ c alts, (V n).srcs = c :: alts → StreamVal V inp c t (ρ c).2 → (ρ c).2 < alts.length) :
    ∀ n ∈ order, (ρ n).1 = width (V n).ty ∧ StreamVal V inp n t (ρ n).2 := by
  have key : ∀ k n, n ∈ order → order.idxOf n = k → (ρ n).1 = width (V n).ty ∧ StreamVal V inp n t (ρ n).2 := by
    intro k
    induction k using Nat.strongRecOn with
    | _ k ih =>
      intro n hn hk
      have ih' : ∀ s ∈ (V n).srcs, (ρ s).1 = width (V s).ty ∧ StreamVal V inp s t (ρ s).2 := by
        intro s hs
        obtain ⟨h1, h2⟩ := srcs_in_order hto hn hs
        exact ih _ (by omega) s h1 rfl
      have he := hρ n hn
      have hcn := hc n hn
      have hsup := (hp n hn).supp 0
      have hs := hsup.2
      by_cases hop : (V n).op ∈ [.IN, .CONST, .OUT, .MUX]
      · simp only [List.mem_cons, List.not_mem_nil, or_false] at hop
        unfold NodeEq at he
        rcases hop with ho | ho | ho | ho <;> simp only [ho] at he hs
        · have h1 : ρ n = I (V n).name := he
          rw [h1, hin n hn ho]
          refine ⟨rfl, ?_⟩
          by_cases hks : (V n).kind = .stream
          · rw [if_pos hks]; exact .input ho hks
          · rw [if_neg hks]; exact .scalar ho hks
        · obtain ⟨c, hkc⟩ := hcn.const ho
          have h1 := he c hkc
          simp only [patInterp] at h1
          rw [h1, totalBits_width hsup.1]
          have hlt := pattern_lt (V n).ty (constInt (V n).ty c)
          unfold pattern at hlt
          rw [Nat.mod_eq_of_lt hlt]
          exact ⟨rfl, .const ho hkc⟩
        · obtain ⟨s, hsrc⟩ := out_srcs hcn ho
          have h1 := he s hsrc
          obtain ⟨e1, e2⟩ := ih' s (by simp [hsrc])
          rw [h1]
          exact ⟨by rw [e1]; exact (hs s (by simp [hsrc])).1, .out ho hsrc e2⟩
        · obtain ⟨-, c, alts, hsrc⟩ := hcn.mux ho
          have hlt := hr n hn ho c alts hsrc (ih' c (by simp [hsrc])).2
          have hget : alts[(ρ c).2]? = some alts[(ρ c).2] := List.getElem?_eq_getElem hlt
          have h1 := he c alts hsrc _ hget
          have hmem : alts[(ρ c).2] ∈ alts := List.getElem_mem hlt
          obtain ⟨e1, e2⟩ := ih' alts[(ρ c).2] (by rw [hsrc]; exact List.mem_cons_of_mem _ hmem)
          obtain ⟨-, c2⟩ := ih' c (by simp [hsrc])
          rw [h1]
          exact ⟨by rw [e1]; exact ((hs c alts hsrc).2.2 _ hmem).1, .mux ho hsrc (by omega) c2 hget e2⟩
      · obtain ⟨a, ha⟩ := opMeaning_defined hcn (hp n hn) hop (fun s => (ρ s).2)
        have h1 : ρ n = (patInterp I).app (V n).op
            (match (V n).op with | .OFFSET | .SHL | .SHR | .BITS => paramsOf (V n).data | _ => []) (V n).ty ((V n).srcs.map ρ) := by
          unfold NodeEq at he
          simp only [List.mem_cons, List.not_mem_nil, or_false, not_or] at hop
          cases ho : (V n).op <;> simp only [ho] at he
          case IN => simp [ho] at hop
          case CONST => simp [ho] at hop
          case OUT => simp [ho] at hop
          case MUX => simp [ho] at hop
          all_goals exact he
        have h2 : ((V n).srcs.map ρ).map (fun a => (DFType.rawBits a.1, a.2)) = (V n).srcs.map fun s => (.rawBits (width (V s).ty), (ρ s).2) := by
          rw [List.map_map]
          refine List.map_congr_left fun s hsm => ?_
          simp only [Function.comp_apply, (ih' s hsm).1]
        have huns : ∀ s ∈ (V n).srcs, unsignedTy (V s).ty := fun s hsm => (hp s (srcs_in_order hto hn hsm).1).uns
        simp only [patInterp, h2] at h1
        rw [dataOf_params hcn, ← opMeaning_unsigned huns, ha] at h1
        rw [h1]
        exact ⟨rfl, .op (fun s => (ρ s).2) (by omega) (fun s hsm => (ih' s hsm).2) ha⟩
  exact fun n hn => key _ n hn rfl

end Verif.Flow
