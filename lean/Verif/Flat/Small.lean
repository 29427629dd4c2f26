import Verif.Flat.Tac
import Verif.Flat.Model
import Verif.Kernels.Rules
import Mathlib.Tactic.Ring
import Mathlib.Data.BitVec
/-
The small example kernels of /repo/examples: what their hardware computes.
-/
namespace Verif.Flat
open Verif.Dfcxx Verif.Flow Verif.Kernels

/-- The value at a 32-bit port. -/
def at32 (port : Env) (name : String) (t : Nat) : BitVec 32 := BitVec.ofNat 32 (port name t)

/-- An unsigned 32-bit output port. -/
def out32 (name : String) (val : Env → Nat → BitVec 32) : OutPort := ⟨name, 32, false, 0, val⟩

/-- Unsigned kernels without offsets. -/
def plainCfg (ins : List (String × Nat)) : Cfg := ⟨false, false, ins, fun _ => false, fun _ => false⟩

theorem u32 : TypeOK (uint 32) := (uint_ok (by decide) (by decide)).1

variable {F : FloatOps} {ins : List (String × Nat)} {w : World} {N : List Nat}

theorem inp32 (hg : FGood F (plainCfg ins) N w) {name : String} (h : (name, 32) ∈ ins) :
    FDoes F (plainCfg ins) (call1 F (.input false name (uint 32))) w (fun _ => N)
      (fun n w' => Str (plainCfg ins) w' n false 0 (fun inp t => at32 inp name t.toNat)) :=
  hg.input (k := 32) (s := false) u32 rfl rfl h rfl rfl

theorem add32 (hg : FGood F (plainCfg ins) N w) {a b : Nat} {x y : Env → Int → BitVec 32} (ha : Str (plainCfg ins) w a false 0 x)
    (hb : SVal (plainCfg ins) w b false 0 y) :
    FDoes F (plainCfg ins) (call1 F (.bin .ADD a b)) w (fun _ => N)
      (fun n w' => Str (plainCfg ins) w' n false 0 (fun inp t => x inp t + y inp t)) := hg.add ha hb (by decide) rfl (.inr rfl)

theorem mul32 (hg : FGood F (plainCfg ins) N w) {a b : Nat} {x y : Env → Int → BitVec 32} (ha : Str (plainCfg ins) w a false 0 x)
    (hb : SVal (plainCfg ins) w b false 0 y) :
    FDoes F (plainCfg ins) (call1 F (.bin .MUL a b)) w (fun _ => N)
      (fun n w' => Str (plainCfg ins) w' n false 0 (fun inp t => x inp t * y inp t)) := hg.mul ha hb (by decide) rfl (.inr rfl)

theorem const32 {n : Nat} {v : Word} (h : w.IsConst n (uint 32) v) (hg : FGood F (plainCfg ins) N w) :
    SVal (plainCfg ins) w n false 0 (fun _ _ => BitVec.ofInt 32 (constInt (uint 32) v)) := isConst_sval hg h (k := 32) (s := false) rfl rfl _

/-- The code of `AddConst` establishes its output streams. -/
theorem addConst_does : FDoes F (plainCfg [("x", 32)]) (addConst F) World.init (fun _ => []) (fun _ w => ∀ o ∈
    ([out32 "out" fun port t => 3 * at32 port "x" t + 5] : List OutPort), Established (plainCfg [("x", 32)]) w o) := by
  have hg := fgood_init F (plainCfg [("x", 32)])
  unfold addConst
  fstep inp32 hg (by simp) with x hx
  fstep hg.const u32 (fun _ => rfl) 5 with c5 h5
  fstep add32 hg hx hx.val with s1 h1
  fstep add32 hg h1 (const32 h5 hg) with s2 h2
  fstep add32 hg h2 hx.val with s3 h3
  fstep hg.output u32 (fun _ => rfl) with o ho
  fstep hg.connect ho h3.val rfl rfl with u hu
  refine FDoes.pure (by simpa using hg) ?_
  simp only [List.mem_singleton, forall_eq]
  refine hu.established (by decide) fun inp _ t _ => ?_
  have : BitVec.ofInt 32 (constInt (uint 32) 5) = 5 := by decide
  simp only [this, Int.toNat_natCast]
  ring

/-- `AddConst` computes 3x + 5 modulo 2^32. -/
theorem addConst_realizes : Realizes (addConst F) [("x", 32)] [out32 "out" fun port t => 3 * at32 port "x" t + 5] :=
  FDoes.realizes (F := F) (C := plainCfg [("x", 32)]) addConst_does (fun _ => rfl) rfl rfl

/-- The code of `Polynomial2` establishes its output streams. -/
theorem polynomial2_does : FDoes F (plainCfg [("x", 32)]) (polynomial2 F) World.init (fun _ => []) (fun _ w => ∀ o ∈
    ([out32 "out" fun port t => at32 port "x" t ^ 2 + 2 * at32 port "x" t] : List OutPort), Established (plainCfg [("x", 32)]) w o) := by
  have hg := fgood_init F (plainCfg [("x", 32)])
  unfold polynomial2
  fstep inp32 hg (by simp) with x hx
  fstep mul32 hg hx hx.val with s1 h1
  fstep add32 hg h1 hx.val with s2 h2
  fstep add32 hg h2 hx.val with s3 h3
  fstep hg.output u32 (fun _ => rfl) with o ho
  fstep hg.connect ho h3.val rfl rfl with u hu
  refine FDoes.pure (by simpa using hg) ?_
  simp only [List.mem_singleton, forall_eq]
  refine hu.established (by decide) fun inp _ t _ => ?_
  simp only [Int.toNat_natCast]
  ring

/-- `Polynomial2` computes x² + 2x modulo 2^32. -/
theorem polynomial2_realizes : Realizes (polynomial2 F) [("x", 32)] [out32 "out" fun port t => at32 port "x" t ^ 2 + 2 * at32 port "x" t] :=
  FDoes.realizes (F := F) (C := plainCfg [("x", 32)]) polynomial2_does (fun _ => rfl) rfl rfl

/-- The code of `Scalar3` establishes its output streams. -/
theorem scalar3_does : FDoes F (plainCfg [("x1", 32), ("y1", 32), ("x2", 32), ("y2", 32), ("x3", 32), ("y3", 32)]) (scalar3 F) World.init (fun _ => []) (fun _ w => ∀ o ∈
    ([out32 "out" fun port t => at32 port "x1" t * at32 port "y1" t + at32 port "x2" t * at32 port "y2" t + at32 port "x3" t * at32 port "y3" t] : List OutPort), Established (plainCfg [("x1", 32), ("y1", 32), ("x2", 32), ("y2", 32), ("x3", 32), ("y3", 32)]) w o) := by
  have hg := fgood_init F (plainCfg [("x1", 32), ("y1", 32), ("x2", 32), ("y2", 32), ("x3", 32), ("y3", 32)])
  unfold scalar3
  fstep inp32 hg (by simp) with x1 hx1
  fstep inp32 hg (by simp) with y1 hy1
  fstep inp32 hg (by simp) with x2 hx2
  fstep inp32 hg (by simp) with y2 hy2
  fstep inp32 hg (by simp) with x3 hx3
  fstep inp32 hg (by simp) with y3 hy3
  fstep mul32 hg hx1 hy1.val with m1 h1
  fstep mul32 hg hx2 hy2.val with m2 h2
  fstep mul32 hg hx3 hy3.val with m3 h3
  fstep add32 hg h1 h2.val with s1 h4
  fstep add32 hg h4 h3.val with s2 h5
  fstep hg.output u32 (fun _ => rfl) with o ho
  fstep hg.connect ho h5.val rfl rfl with u hu
  refine FDoes.pure (by simpa using hg) ?_
  simp only [List.mem_singleton, forall_eq]
  exact hu.established (by decide) fun inp _ t _ => rfl

/-- `Scalar3` computes the scalar product of (x1, x2, x3) and (y1, y2, y3) modulo 2^32. -/
theorem scalar3_realizes : Realizes (scalar3 F) [("x1", 32), ("y1", 32), ("x2", 32), ("y2", 32), ("x3", 32), ("y3", 32)]
    [out32 "out" fun port t => at32 port "x1" t * at32 port "y1" t + at32 port "x2" t * at32 port "y2" t + at32 port "x3" t * at32 port "y3" t] :=
  FDoes.realizes (F := F) (C := plainCfg [("x1", 32), ("y1", 32), ("x2", 32), ("y2", 32), ("x3", 32), ("y3", 32)]) scalar3_does (fun _ => rfl) rfl rfl

/-- The input ports of `MatrixMul2`. -/
def matrixIns : List (String × Nat) :=
  [("x11", 32), ("x12", 32), ("x21", 32), ("x22", 32), ("y11", 32), ("y12", 32), ("y21", 32), ("y22", 32)]

/-- An element of the product of two 2 by 2 matrices: row (a, b) by column (c, d). -/
def rowByColumn (a b c d : String) (port : Env) (t : Nat) : BitVec 32 :=
  at32 port a t * at32 port c t + at32 port b t * at32 port d t

/-- The code of `MatrixMul2` establishes its output streams. -/
theorem matrixMul2_does : FDoes F (plainCfg matrixIns) (matrixMul2 F) World.init (fun _ => []) (fun _ w => ∀ o ∈
    ([out32 "out11" (rowByColumn "x11" "x12" "y11" "y21"), out32 "out12" (rowByColumn "x11" "x12" "y12" "y22"),
     out32 "out21" (rowByColumn "x21" "x22" "y11" "y21"), out32 "out22" (rowByColumn "x21" "x22" "y12" "y22")] : List OutPort), Established (plainCfg matrixIns) w o) := by
  have hg := fgood_init F (plainCfg matrixIns)
  unfold matrixMul2
  fstep inp32 hg (by simp [matrixIns]) with x11 hx11
  fstep inp32 hg (by simp [matrixIns]) with x12 hx12
  fstep inp32 hg (by simp [matrixIns]) with x21 hx21
  fstep inp32 hg (by simp [matrixIns]) with x22 hx22
  fstep inp32 hg (by simp [matrixIns]) with y11 hy11
  fstep inp32 hg (by simp [matrixIns]) with y12 hy12
  fstep inp32 hg (by simp [matrixIns]) with y21 hy21
  fstep inp32 hg (by simp [matrixIns]) with y22 hy22
  fstep mul32 hg hx11 hy11.val with m11 h11
  fstep mul32 hg hx12 hy21.val with m12 h12
  fstep mul32 hg hx11 hy12.val with m21 h21
  fstep mul32 hg hx12 hy22.val with m22 h22
  fstep mul32 hg hx21 hy11.val with m31 h31
  fstep mul32 hg hx22 hy21.val with m32 h32
  fstep mul32 hg hx21 hy12.val with m41 h41
  fstep mul32 hg hx22 hy22.val with m42 h42
  fstep add32 hg h11 h12.val with s1 h1
  fstep add32 hg h21 h22.val with s2 h2
  fstep add32 hg h31 h32.val with s3 h3
  fstep add32 hg h41 h42.val with s4 h4
  fstep hg.output u32 (fun _ => rfl) with o1 ho1
  fstep hg.connect ho1 h1.val rfl rfl with u1 hu1
  fstep hg.output u32 (fun _ => rfl) with o2 ho2
  fstep hg.connect ho2 h2.val rfl rfl with u2 hu2
  fstep hg.output u32 (fun _ => rfl) with o3 ho3
  fstep hg.connect ho3 h3.val rfl rfl with u3 hu3
  fstep hg.output u32 (fun _ => rfl) with o4 ho4
  fstep hg.connect ho4 h4.val rfl rfl with u4 hu4
  refine FDoes.pure (by simpa using hg) ?_
  simp only [List.mem_cons, List.not_mem_nil, or_false]
  rintro o (rfl | rfl | rfl | rfl)
  · exact hu1.established (by decide) fun inp _ t _ => rfl
  · exact hu2.established (by decide) fun inp _ t _ => rfl
  · exact hu3.established (by decide) fun inp _ t _ => rfl
  · exact hu4.established (by decide) fun inp _ t _ => rfl

/-- `MatrixMul2` computes the product of two 2 by 2 matrices modulo 2^32. -/
theorem matrixMul2_realizes : Realizes (matrixMul2 F) matrixIns
    [out32 "out11" (rowByColumn "x11" "x12" "y11" "y21"), out32 "out12" (rowByColumn "x11" "x12" "y12" "y22"),
     out32 "out21" (rowByColumn "x21" "x22" "y11" "y21"), out32 "out22" (rowByColumn "x21" "x22" "y12" "y22")] :=
  FDoes.realizes (F := F) (C := plainCfg matrixIns) matrixMul2_does (fun _ => rfl) rfl rfl

/-- The code of `MuxMul` establishes its output streams. -/
theorem muxMul_does : FDoes F (plainCfg [("x", 32), ("ctrl", 1)]) (muxMul F) World.init (fun _ => []) (fun _ w => ∀ o ∈
    ([out32 "out" fun port t => if port "ctrl" t = 1 then 2 * at32 port "x" t else 0] : List OutPort), Established (plainCfg [("x", 32), ("ctrl", 1)]) w o) := by
  have hg := fgood_init F (plainCfg [("x", 32), ("ctrl", 1)])
  unfold muxMul
  fstep inp32 hg (by simp) with x hx
  fstep hg.input (k := 1) (s := false) (uint_ok (by decide) (by decide)).1 rfl rfl (name := "ctrl") (by simp [plainCfg]) rfl rfl with c hc
  fstep hg.const u32 (fun _ => rfl) 0 with c0 h0
  fstep hg.const u32 (fun _ => rfl) 1 with c1 h1
  fstep hg.mux hc (by decide) (.cons (const32 h0 hg) (.cons (const32 h1 hg) .nil))
    (fun inp _ t _ => by have := (BitVec.ofNat 1 (inp "ctrl" t.toNat)).isLt; simp only [List.length_cons, List.length_nil]; omega)
    (by simp) (.inl (by simp)) rfl rfl with m hm
  fstep add32 hg hx hx.val with s1 h2
  fstep mul32 hg h2 hm.val with p hp
  fstep hg.output u32 (fun _ => rfl) with o ho
  fstep hg.connect ho hp.val rfl rfl with u hu
  refine FDoes.pure (by simpa using hg) ?_
  simp only [List.mem_singleton, forall_eq]
  refine hu.established (by decide) fun inp hf t _ => ?_
  have hlt := hf ("ctrl", 1) (by simp [plainCfg]) t
  have e0 : BitVec.ofInt 32 (constInt (uint 32) 0) = 0 := by decide
  have e1 : BitVec.ofInt 32 (constInt (uint 32) 1) = 1 := by decide
  simp only [List.map_cons, List.map_nil, e0, e1, Int.toNat_natCast]
  have h01 : inp "ctrl" t = 0 ∨ inp "ctrl" t = 1 := by simp only at hlt; omega
  rcases h01 with h | h
  · rw [h, if_neg (by decide)]
    show (at32 inp "x" t + at32 inp "x" t) * 0 = 0
    ring
  · rw [h, if_pos rfl]
    show (at32 inp "x" t + at32 inp "x" t) * 1 = _
    ring

/-- `MuxMul` computes 2x modulo 2^32 where `ctrl` is 1, and 0 where it is 0. -/
theorem muxMul_realizes : Realizes (muxMul F) [("x", 32), ("ctrl", 1)]
    [out32 "out" fun port t => if port "ctrl" t = 1 then 2 * at32 port "x" t else 0] :=
  FDoes.realizes (F := F) (C := plainCfg [("x", 32), ("ctrl", 1)]) muxMul_does (fun _ => rfl) rfl rfl

/-- The configuration of `MovingSum`. -/
def movingCfg : Cfg := ⟨false, true, [("x", 32)], fun _ => false, fun _ => false⟩

/-- The code of `MovingSum` establishes its output stream. -/
theorem movingSum_does : FDoes F movingCfg (movingSum F) World.init (fun _ => []) (fun _ w => ∀ o ∈
    ([⟨"out", 32, false, 1, fun port t => at32 port "x" (t - 1) + at32 port "x" t + at32 port "x" (t + 1)⟩] : List OutPort), Established movingCfg w o) := by
  have hg := fgood_init F movingCfg
  unfold movingSum
  fstep hg.input (k := 32) (s := false) u32 rfl rfl (name := "x") (by simp [movingCfg]) rfl rfl with x hx
  fstep hg.offset hx rfl (o := -1) (by decide) with xm hm
  fstep hg.offset hx rfl (o := 1) (by decide) with xp hp
  fstep hg.add (d := 1) hm (hx.val.later (by decide)) (by decide) rfl (.inr rfl) with s1 h1
  fstep hg.add h1 (hp.val.later (by decide)) (by decide) rfl (.inr rfl) with s2 h2
  fstep hg.output u32 (fun _ => rfl) with o ho
  fstep hg.connect ho h2.val rfl rfl with u hu
  refine FDoes.pure (by simpa using hg) ?_
  simp only [List.mem_singleton, forall_eq]
  refine hu.established (by decide) fun inp _ t ht => ?_
  have e1 : ((t : Int) + -1).toNat = t - 1 := by omega
  have e2 : ((t : Int) + 1).toNat = t + 1 := by omega
  simp only [e1, e2, Int.toNat_natCast]
  rfl

/-- `MovingSum` computes the sum of the previous, the present and the next element of the stream; the first element of the output is not
defined. -/
theorem movingSum_realizes : ScheduledRealizes (movingSum F) false [("x", 32)]
    [⟨"out", 32, false, 1, fun port t => at32 port "x" (t - 1) + at32 port "x" t + at32 port "x" (t + 1)⟩] :=
  FDoes.scheduled (C := movingCfg) (F := F) movingSum_does (.inl fun _ => rfl)

end Verif.Flat
