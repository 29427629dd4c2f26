import Verif.Flat.Small
import Verif.Flat.IdctSpec
/-
The row pass of the inverse DCT.
-/
namespace Verif.Flat
open Verif.Dfcxx Verif.Flow Verif.Kernels

theorem s32 : TypeOK (sint 32) := ⟨by decide, by decide, by intro e f h; cases h⟩

/-- What the rules need to know about the kernel. -/
structure IdctCfg (C : Cfg) (m : Nat) : Prop where
  signed : C.signed = true
  sg32 : C.sg 32 = true
  sgm : C.sg m = true
  ex32 : C.exempt 32 = false
  exm : C.exempt m = false
  pos : 1 < m
  lt : m < 65536

/-- The constants. -/
structure ConstsAt (w : World) (m : Nat) (K : IdctConsts) : Prop where
  c128 : w.IsConst K.c128 (sint 32) 128
  c181 : w.IsConst K.c181 (sint 32) 181
  c8192 : w.IsConst K.c8192 (sint 32) 8192
  c4 : w.IsConst K.c4 (sint 32) 4
  cM256 : w.IsConst K.cM256 (sint m) (-256)
  c255 : w.IsConst K.c255 (sint m) 255
  W1 : w.IsConst K.W1 (sint 32) 2841
  W2 : w.IsConst K.W2 (sint 32) 2676
  W3 : w.IsConst K.W3 (sint 32) 2408
  W5 : w.IsConst K.W5 (sint 32) 1609
  W6 : w.IsConst K.W6 (sint 32) 1108
  W7 : w.IsConst K.W7 (sint 32) 565

section
variable {F : FloatOps} {C : Cfg} {w : World} {N : List Nat} {m : Nat}

theorem ConstsAt.mono {w' : World} {K : IdctConsts} (h : ConstsAt w m K) (hg : FGood F C N w) (hx : FExt w w') : ConstsAt w' m K :=
  ⟨IsConst.mono h.c128 hg hx, IsConst.mono h.c181 hg hx, IsConst.mono h.c8192 hg hx, IsConst.mono h.c4 hg hx, IsConst.mono h.cM256 hg hx,
    IsConst.mono h.c255 hg hx, IsConst.mono h.W1 hg hx, IsConst.mono h.W2 hg hx, IsConst.mono h.W3 hg hx, IsConst.mono h.W5 hg hx,
    IsConst.mono h.W6 hg hx, IsConst.mono h.W7 hg hx⟩

theorem sint_ok (hm : 1 < m) (hl : m < 65536) : TypeOK (sint m) ∧ width (sint m) = m := by
  have : width (sint m) = m := by unfold sint width; simp; omega
  exact ⟨⟨by rw [this]; omega, by rw [this]; exact hl, by intro e f h; cases h⟩, this⟩

theorem idctConsts_does (hC : IdctCfg C m) (hg : FGood F C N w) :
    FDoes F C (idctConsts F (sint m)) w (fun _ => N) (fun K w' => ConstsAt w' m K) := by
  unfold idctConsts
  have i32 : C.exempt (width (sint 32)) = false → (sint 32).isSigned = C.sg (width (sint 32)) := fun _ => hC.sg32.symm
  have im : C.exempt (width (sint m)) = false → (sint m).isSigned = C.sg (width (sint m)) := fun _ => by
    rw [(sint_ok hC.pos hC.lt).2, hC.sgm]; rfl
  fstep hg.const s32 i32 128 with c1 h1
  fstep hg.const s32 i32 181 with c2 h2
  fstep hg.const s32 i32 8192 with c3 h3
  fstep hg.const s32 i32 4 with c4 h4
  fstep hg.const (sint_ok hC.pos hC.lt).1 im (-256) with c5 h5
  fstep hg.const (sint_ok hC.pos hC.lt).1 im 255 with c6 h6
  fstep hg.const s32 i32 2841 with c7 h7
  fstep hg.const s32 i32 2676 with c8 h8
  fstep hg.const s32 i32 2408 with c9 h9
  fstep hg.const s32 i32 1609 with c10 h10
  fstep hg.const s32 i32 1108 with c11 h11
  fstep hg.const s32 i32 565 with c12 h12
  exact FDoes.pure hg ⟨h1, h2, h3, h4, h5, h6, h7, h8, h9, h10, h11, h12⟩

/-- 32-bit signed streams. -/
abbrev S32 (C : Cfg) (w : World) (n : Nat) (e : Env → Int → BitVec 32) : Prop := Str C w n true 0 e

theorem IdctCfg.add (hC : IdctCfg C m) (hg : FGood F C N w) {a b : Nat} {x y : Env → Int → BitVec 32} (ha : S32 C w a x)
    (hb : SVal C w b true 0 y) :
    FDoes F C (call1 F (.bin .ADD a b)) w (fun _ => N) (fun n w' => Str C w' n true 0 (fun inp t => x inp t + y inp t)) :=
  hg.add ha hb (by decide) hC.ex32 (.inl hC.signed)

theorem IdctCfg.sub (hC : IdctCfg C m) (hg : FGood F C N w) {a b : Nat} {x y : Env → Int → BitVec 32} (ha : S32 C w a x)
    (hb : SVal C w b true 0 y) :
    FDoes F C (call1 F (.bin .SUB a b)) w (fun _ => N) (fun n w' => Str C w' n true 0 (fun inp t => x inp t - y inp t)) :=
  hg.sub ha hb (by decide) hC.ex32 (.inl hC.signed)

theorem IdctCfg.mulc (hC : IdctCfg C m) (hg : FGood F C N w) {a b : Nat} {x : Env → Int → BitVec 32} {v : Word} (ha : S32 C w a x)
    (hb : w.IsConst b (sint 32) v) (c : BitVec 32) (hc : BitVec.ofInt 32 (constInt (sint 32) v) = c := by decide) :
    FDoes F C (call1 F (.bin .MUL a b)) w (fun _ => N) (fun n w' => Str C w' n true 0 (fun inp t => x inp t * c)) := by
  subst hc
  exact hg.mul ha (isConst_sval hg hb (k := 32) (s := true) rfl rfl _) (by decide) hC.ex32 (.inl hC.signed)

theorem IdctCfg.addc (hC : IdctCfg C m) (hg : FGood F C N w) {a b : Nat} {x : Env → Int → BitVec 32} {v : Word} (ha : S32 C w a x)
    (hb : w.IsConst b (sint 32) v) (c : BitVec 32) (hc : BitVec.ofInt 32 (constInt (sint 32) v) = c := by decide) :
    FDoes F C (call1 F (.bin .ADD a b)) w (fun _ => N) (fun n w' => Str C w' n true 0 (fun inp t => x inp t + c)) := by
  subst hc
  exact hg.add ha (isConst_sval hg hb (k := 32) (s := true) rfl rfl _) (by decide) hC.ex32 (.inl hC.signed)

theorem IdctCfg.shr (hg : FGood F C N w) {a sh : Nat} {x : Env → Int → BitVec 32} (ha : S32 C w a x) (hs : sh < 256) :
    FDoes F C (call1 F (.shift false a sh)) w (fun _ => N) (fun n w' => Str C w' n true 0 (fun inp t => (x inp t).sshiftRight sh)) :=
  hg.shr ha (by decide) hs

theorem IdctCfg.cast (hC : IdctCfg C m) (hg : FGood F C N w) {k a : Nat} {s : Bool} {x : Env → Int → BitVec k} (ha : SVal C w a s 0 x)
    (hk : C.exempt k = false) :
    FDoes F C (call1 F (.cast a (sint 32) false)) w (fun _ => N) (fun n w' => Str C w' n true 0 (fun inp t => (x inp t).signExtend 32)) :=
  hg.cast ha (by decide) s32 (k' := 32) rfl (s' := true) rfl (by rw [hk]; intro h; cases h) (fun _ => hC.sg32.symm)

theorem IdctCfg.castm (hC : IdctCfg C m) (hg : FGood F C N w) {a : Nat} {x : Env → Int → BitVec 32} (ha : S32 C w a x) :
    FDoes F C (call1 F (.cast a (sint m) false)) w (fun _ => N) (fun n w' => Str C w' n true 0 (fun inp t => (x inp t).signExtend m)) :=
  hg.cast ha.val (by decide) (sint_ok hC.pos hC.lt).1 (k' := m) (sint_ok hC.pos hC.lt).2 (s' := true) rfl
    (by rw [hC.ex32]; intro h; cases h) (fun _ => hC.sgm.symm)

/-- Shifting a short value left by eleven bits does not overflow. -/
theorem IdctCfg.shl (hg : FGood F C N w) {k a sh : Nat} {x : Env → Int → BitVec k} (ha : S32 C w a fun inp t => (x inp t).signExtend 32)
    (hk : 0 < k) (hs : k + sh ≤ 32) :
    FDoes F C (call1 F (.shift true a sh)) w (fun _ => N) (fun n w' => Str C w' n true 0 (fun inp t => (x inp t).signExtend 32 <<< sh)) := by
  refine hg.shl ha (by decide) (by omega) fun _ => ⟨by decide, fun inp t => ?_⟩
  rw [BitVec.toInt_signExtend_of_le (by omega)]
  have h1 := BitVec.two_mul_toInt_lt (x := x inp t)
  have h2 := BitVec.le_two_mul_toInt (x := x inp t)
  obtain ⟨j, rfl⟩ : ∃ j, k = j + 1 := ⟨k - 1, by omega⟩
  have e1 : (2 : Int) ^ (j + 1) = 2 * 2 ^ j := by ring
  rw [e1] at h1 h2
  have hp : (0 : Int) < 2 ^ sh := by positivity
  have hle : (2 : Int) ^ j * 2 ^ sh ≤ 2 ^ (32 - 1) := by
    rw [← pow_add]; exact pow_le_pow_right₀ (by decide) (by omega)
  constructor <;> nlinarith

theorem IdctCfg.shiftCast (hC : IdctCfg C m) (hg : FGood F C N w) {a b sh : Nat} {x y : Env → Int → BitVec 32} (ha : S32 C w a x)
    (hb : S32 C w b y) (hs : sh < 256) (op : OpType) (hop : op = .ADD ∨ op = .SUB) :
    FDoes F C (shiftCast F (sint m) op a b sh) w (fun _ => N)
      (fun n w' => Str C w' n true 0 (fun inp t => ((if op = .ADD then x inp t + y inp t else x inp t - y inp t).sshiftRight sh).signExtend m)) := by
  unfold Flat.shiftCast
  rcases hop with rfl | rfl
  · fstep hC.add hg ha hb.val with s h1
    fstep IdctCfg.shr hg h1 hs with r h2
    exact hC.castm hg h2
  · fstep hC.sub hg ha hb.val with s h1
    fstep IdctCfg.shr hg h1 hs with r h2
    exact hC.castm hg h2

/-- The values of a row. -/
def RowAt (C : Cfg) (w : World) {k : Nat} (s : Bool) (v : Nat → Nat) (x : Nat → Env → Int → BitVec k) : Prop :=
  ∀ j < 8, SVal C w (v j) s 0 (x j)

theorem RowAt.mono {w' : World} {k : Nat} {s : Bool} {v : Nat → Nat} {x : Nat → Env → Int → BitVec k} (h : RowAt C w s v x) (hg : FGood F C N w)
    (hx : FExt w w') : RowAt C w' s v x := fun j hj => (h j hj).mono hg hx

theorem IdctCfg.row (hC : IdctCfg C m) (hg : FGood F C N w) {K : IdctConsts} (hK : ConstsAt w m K) {k : Nat} {s : Bool} {v : Nat → Nat}
    {x : Nat → Env → Int → BitVec k} (hv : RowAt C w s v x) (hk : C.exempt k = false) (hk0 : 0 < k) (hk1 : k + 11 ≤ 32) :
    FDoes F C (rowPass F (sint m) K v) w (fun _ => N) (fun ys w' => ys.length = 8 ∧
      ∀ j < 8, Str C w' (ys.getD j 0) true 0 (fun inp t => (idctRow (fun i => (x i inp t).signExtend 32) j).signExtend m)) := by
  unfold rowPass
  fstep hC.cast hg (hv 0 (by decide)) hk with a0 g0
  fstep IdctCfg.shl hg g0 hk0 hk1 with b0 g1
  fstep hC.addc hg g1 hK.c128 128 with x0 h0
  fstep hC.cast hg (hv 4 (by decide)) hk with a1 g2
  fstep IdctCfg.shl hg g2 hk0 hk1 with x1 h1
  clear g0 g1 g2
  fstep hC.cast hg (hv 6 (by decide)) hk with x2 h2
  fstep hC.cast hg (hv 2 (by decide)) hk with x3 h3
  fstep hC.cast hg (hv 1 (by decide)) hk with x4 h4
  fstep hC.cast hg (hv 7 (by decide)) hk with x5 h5
  fstep hC.cast hg (hv 5 (by decide)) hk with x6 h6
  fstep hC.cast hg (hv 3 (by decide)) hk with x7 h7
  clear hv
  -- first stage
  fstep hC.add hg h4 h5.val with s1 j1
  fstep hC.mulc hg j1 hK.W7 565 with x8 h8
  clear j1
  fstep hg.fold hK.W1 hK.W7 rfl rfl with d1 k1
  fstep hC.mulc hg h4 k1 (2841 - 565) with m1 j1
  clear k1
  fstep hC.add hg h8 j1.val with x4' h4'
  clear j1 h4
  fstep hg.fold hK.W1 hK.W7 rfl rfl with d1 k1
  fstep hC.mulc hg h5 k1 (2841 + 565) with m1 j1
  clear k1
  fstep hC.sub hg h8 j1.val with x5' h5'
  clear j1 h5 h8
  fstep hC.add hg h6 h7.val with s1 j1
  fstep hC.mulc hg j1 hK.W3 2408 with x8 h8
  clear j1
  fstep hg.fold hK.W3 hK.W5 rfl rfl with d1 k1
  fstep hC.mulc hg h6 k1 (2408 - 1609) with m1 j1
  clear k1
  fstep hC.sub hg h8 j1.val with x6' h6'
  clear j1 h6
  fstep hg.fold hK.W3 hK.W5 rfl rfl with d1 k1
  fstep hC.mulc hg h7 k1 (2408 + 1609) with m1 j1
  clear k1
  fstep hC.sub hg h8 j1.val with x7' h7'
  clear j1 h7 h8
  -- second stage
  fstep hC.add hg h0 h1.val with x8 h8
  fstep hC.sub hg h0 h1.val with x0' h0'
  clear h0 h1
  fstep hC.add hg h3 h2.val with s1 j1
  fstep hC.mulc hg j1 hK.W6 1108 with x1 h1
  clear j1
  fstep hg.fold hK.W2 hK.W6 rfl rfl with d1 k1
  fstep hC.mulc hg h2 k1 (2676 + 1108) with m1 j1
  clear k1
  fstep hC.sub hg h1 j1.val with x2' h2'
  clear j1 h2
  fstep hg.fold hK.W2 hK.W6 rfl rfl with d1 k1
  fstep hC.mulc hg h3 k1 (2676 - 1108) with m1 j1
  clear k1
  fstep hC.add hg h1 j1.val with x3' h3'
  clear j1 h3 h1
  fstep hC.add hg h4' h6'.val with x1' h1'
  fstep hC.sub hg h4' h6'.val with x4'' h4''
  clear h4' h6'
  fstep hC.add hg h5' h7'.val with x6'' h6''
  fstep hC.sub hg h5' h7'.val with x5'' h5''
  clear h5' h7'
  -- third stage
  fstep hC.add hg h8 h3'.val with x7'' h7''
  fstep hC.sub hg h8 h3'.val with x8'' h8''
  clear h8 h3'
  fstep hC.add hg h0' h2'.val with x3'' h3''
  fstep hC.sub hg h0' h2'.val with x0'' h0''
  clear h0' h2'
  fstep hC.add hg h4'' h5''.val with s1 j1
  fstep hC.mulc hg j1 hK.c181 181 with m1 j2
  fstep hC.addc hg j2 hK.c128 128 with r1 j3
  fstep IdctCfg.shr hg j3 (by decide) with x2'' h2''
  clear j1 j2 j3
  fstep hC.sub hg h4'' h5''.val with s1 j1
  fstep hC.mulc hg j1 hK.c181 181 with m1 j2
  fstep hC.addc hg j2 hK.c128 128 with r1 j3
  fstep IdctCfg.shr hg j3 (by decide) with x4''' h4'''
  clear j1 j2 j3 h4'' h5'' hK
  -- fourth stage
  fstep hC.shiftCast hg h7'' h1' (by decide) .ADD (.inl rfl) with y0 r0
  fstep hC.shiftCast hg h3'' h2'' (by decide) .ADD (.inl rfl) with y1 r1
  fstep hC.shiftCast hg h0'' h4''' (by decide) .ADD (.inl rfl) with y2 r2
  fstep hC.shiftCast hg h8'' h6'' (by decide) .ADD (.inl rfl) with y3 r3
  fstep hC.shiftCast hg h8'' h6'' (by decide) .SUB (.inr rfl) with y4 r4
  fstep hC.shiftCast hg h0'' h4''' (by decide) .SUB (.inr rfl) with y5 r5
  fstep hC.shiftCast hg h3'' h2'' (by decide) .SUB (.inr rfl) with y6 r6
  fstep hC.shiftCast hg h7'' h1' (by decide) .SUB (.inr rfl) with y7 r7
  refine FDoes.pure hg ⟨rfl, fun j hj => ?_⟩
  match j, hj with
  | 0, _ => exact r0
  | 1, _ => exact r1
  | 2, _ => exact r2
  | 3, _ => exact r3
  | 4, _ => exact r4
  | 5, _ => exact r5
  | 6, _ => exact r6
  | 7, _ => exact r7

end

end Verif.Flat
