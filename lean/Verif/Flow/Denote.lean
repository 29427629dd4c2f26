import Verif.Flow.Struct
import Verif.Flow.HwSpec
/-
The streams of the graph are streams of the block.
-/
namespace Verif.Flow
open Verif.Dfcxx Verif.Hw

/-- A pattern of a data type as a hardware value. -/
def fval (ty : DFType) (n : Nat) : FVal := typed (convertType (hwTy ty)) n

/-- What the operations of the block compute on patterns; `oob` decides multiplexers with a select out of range. -/
def nodeFn (V : Nat → NodeV) (oob : FVal → List FVal → FVal) (n : Nat) (full : List Nat) : Nat :=
  if (V n).op = .MUX then
    match (V n).srcs, full with
    | s :: _, c :: vs => match vs.reverse[c]? with
      | some x => x
      | none => (oob (fval (V s).ty c) (vs.map (fval (V n).ty))).n
    | _, _ => 0
  else (hwMeaning (V n).op (V n).data (V n).ty (((V n).srcs.map fun s => (V s).ty).zip full)).getD 0

def kernelInterp (V : Nat → NodeV) (order : List Nat) (inp : String → Nat → Nat) (oob : FVal → List FVal → FVal) :
    Sched.Interp Nat where
  fn v full := match order[v]? with
    | some n => nodeFn V oob n full
    | none => 0
  inp v t := match order[v]? with
    | some n => inp (V n).name t.toNat
    | none => 0
  cst v := match order[v]? with
    | some n => match (V n).kind with
      | .const c => if (V n).op = .CONST then pattern (V n).ty (constInt (V n).ty c) else inp (V n).name 0
      | _ => inp (V n).name 0
    | none => 0

theorem getConnection_srcs {V : Nat → NodeV} {n s : Nat} (hc : Complete V n) (ho : (V n).op = .OUT) (hs : (V n).srcs = [s]) :
    getConnection (V n) = some s := by
  obtain ⟨x, hx⟩ := hc.out ho
  have : x = s := by simpa [NodeV.srcs, hx] using hs
  subst this
  simp [getConnection, hx]

theorem hwMeaning_op {op : OpType} {data : NodeData} {ty : DFType} {args : List (DFType × Nat)} {a : Nat}
    (h : hwMeaning op data ty args = some a) : op ∉ [.IN, .CONST, .OUT, .OFFSET, .MUX] := by
  intro hm
  simp at hm
  rcases hm with rfl | rfl | rfl | rfl | rfl <;> simp [hwMeaning] at h

/-- **Translation.** What the graph denotes in hardware is what the block denotes. -/
theorem hwVal_sem {V : Nat → NodeV} {order : List Nat} (hto : TopoOrder V order) (hc : ∀ n ∈ order, Complete V n)
    (inp : String → Nat → Nat) (oob : FVal → List FVal → FVal) {n : Nat} {t : Int} {a : Nat} (h : HwVal V inp n t a)
    (hn : n ∈ order) : Sched.Sem (progOf (block V order)) (kernelInterp V order inp oob) (order.idxOf n) t a := by
  induction h with
  | @input n k h hk =>
    have hd := progOf_defn V hn (hc _ hn)
    simp only [defOf, h, hk, if_true] at hd
    have := Sched.Sem.stream (I := kernelInterp V order inp oob) hd (t := k) (by omega)
    simpa [kernelInterp, getElem?_idxOf hn] using this
  | @scalar n t h hk =>
    have hd := progOf_defn V hn (hc _ hn)
    simp only [defOf, h, hk, if_false] at hd
    have := Sched.Sem.scalar (I := kernelInterp V order inp oob) hd (t := t)
    have e : (kernelInterp V order inp oob).cst (order.idxOf n) = inp (V n).name 0 := by
      simp only [kernelInterp, getElem?_idxOf hn, h]
      cases (V n).kind <;> simp
    rwa [e] at this
  | @const n t c h hk =>
    have hd := progOf_defn V hn (hc _ hn)
    simp only [defOf, h] at hd
    have := Sched.Sem.const (I := kernelInterp V order inp oob) hd (t := t)
    have e : (kernelInterp V order inp oob).cst (order.idxOf n) = pattern (V n).ty (constInt (V n).ty c) := by
      simp [kernelInterp, getElem?_idxOf hn, h, hk]
    rwa [e] at this
  | @out n s t a h hs ha ih =>
    have hd := progOf_defn V hn (hc _ hn)
    simp only [defOf, h, getConnection_srcs (hc n hn) h hs, Option.map_some] at hd
    exact .output hd (ih (srcs_in_order hto hn (by simp [hs])).1)
  | @offset n s t a k h hdt hs ha ih =>
    have hd := progOf_defn V hn (hc _ hn)
    simp only [defOf, h, hdt, hs] at hd
    exact .offset hd (ih (srcs_in_order hto hn (by simp [hs])).1)
  | @mux n c alts t i s a h hs ht hcv hi ha ihc iha =>
    have hd := progOf_defn V hn (hc _ hn)
    simp only [defOf, h, hs] at hd
    have hci := ihc (srcs_in_order hto hn (by simp [hs])).1
    have hsm : s ∈ alts := List.mem_of_getElem? hi
    have hai := iha (srcs_in_order hto hn (by simp [hs, hsm])).1
    have hil : i < alts.length := (List.getElem?_eq_some_iff.mp hi).1
    refine .node (fun j => if j = 0 then some i else if j = alts.length - i then some a else none) hd ht ?_ ?_
    · intro j w b hj hb
      by_cases h0 : j = 0
      · subst h0
        simp at hj hb
        rw [← hj, ← hb]; exact hci
      · simp only [h0, if_false] at hb
        split at hb
        · rename_i hje
          cases hb
          obtain ⟨j', rfl⟩ : ∃ j', j = j' + 1 := ⟨j - 1, by omega⟩
          rw [List.getElem?_cons_succ, List.getElem?_reverse (by simp; omega)] at hj
          have e : (alts.map order.idxOf).length - 1 - j' = i := by simp; omega
          rw [e, List.getElem?_map, hi] at hj
          cases hj
          exact hai
        · cases hb
    · intro full hl hK
      have h0 := hK 0 i (by simp) (by simp)
      have h1 := hK (alts.length - i) a (by
        have : ¬ alts.length - i = 0 := by omega
        simp [this]) (by simp; omega)
      show (kernelInterp V order inp oob).fn (order.idxOf n) full = a
      simp only [kernelInterp, getElem?_idxOf hn, nodeFn, h, if_true, hs]
      cases full with
      | nil => simp at h0
      | cons c' vs =>
        simp at h0; subst h0
        have hvl : vs.length = alts.length := by simpa using hl
        obtain ⟨j', hj'⟩ : ∃ j', alts.length - c' = j' + 1 := ⟨alts.length - c' - 1, by omega⟩
        rw [hj', List.getElem?_cons_succ] at h1
        have : vs.reverse[c']? = some a := by
          rw [List.getElem?_reverse (by omega)]
          have e : vs.length - 1 - c' = j' := by omega
          rw [e]; exact h1
        simp [this]
  | @op n t a vals ht hs ho ih =>
    have hop := hwMeaning_op ho
    have hd := progOf_defn V hn (hc _ hn)
    have hdn : defOf V order.idxOf n = .node ((V n).srcs.map order.idxOf) := by
      unfold defOf
      simp at hop
      cases hh : (V n).op <;> simp_all
    rw [hdn] at hd
    let vals' : Nat → Nat := fun w => match order[w]? with | some m => vals m | none => 0
    have := Sched.Sem.strict (I := kernelInterp V order inp oob) vals' hd ht (by
      intro w hw
      obtain ⟨m, hm, rfl⟩ := List.mem_map.mp hw
      have hmo := (srcs_in_order hto hn hm).1
      have e : vals' (order.idxOf m) = vals m := by simp only [vals', getElem?_idxOf hmo]
      rw [e]
      exact ih m hm hmo)
    have e : (kernelInterp V order inp oob).fn (order.idxOf n) (((V n).srcs.map order.idxOf).map vals') = a := by
      simp only [kernelInterp, getElem?_idxOf hn, nodeFn]
      rw [if_neg (by intro e; simp [e] at hop)]
      have e2 : (((V n).srcs.map fun s => (V s).ty).zip (((V n).srcs.map order.idxOf).map vals')) =
          (V n).srcs.map fun s => ((V s).ty, vals s) := by
        rw [List.map_map, List.zip_map']
        refine List.map_congr_left fun m hm => ?_
        have hmo := (srcs_in_order hto hn hm).1
        simp only [Function.comp_apply, vals', getElem?_idxOf hmo]
      rw [e2, ho]; rfl
    rwa [e] at this

end Verif.Flow
