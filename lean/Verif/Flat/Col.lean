import Verif.Flat.RowIdct
/-
The column pass of the inverse DCT.
-/
namespace Verif.Flat
open Verif.Dfcxx Verif.Flow Verif.Kernels

theorem u2 : TypeOK (uint 2) := (uint_ok (by decide) (by decide)).1

section
variable {F : FloatOps} {C : Cfg} {w : World} {N : List Nat}

/-- What `IDCT` needs beyond `IdctCfg`. -/
structure ClipCfg (C : Cfg) : Prop where
  base : IdctCfg C 13
  sg1 : C.sg 1 = false
  sg2 : C.sg 2 = false
  ex1 : C.exempt 1 = false
  ex2 : C.exempt 2 = false

/-- The clipped value, in 13 bits. -/
def clip13 (x : BitVec 13) : BitVec 13 := BitVec.ofInt 13 (clip9 x.toInt)

theorem ClipCfg.iclp (hC : ClipCfg C) (hg : FGood F C N w) {K : IdctConsts} (hK : ConstsAt w 13 K) {a : Nat} {x : Env → Int → BitVec 13}
    (ha : Str C w a true 0 x) :
    FDoes F C (Flat.iclp F a K.cM256 K.c255) w (fun _ => N) (fun n w' => Str C w' n true 0 (fun inp t => clip13 (x inp t))) := by
  unfold Flat.iclp
  have l := isConst_sval hg hK.cM256 (C := C) (k := 13) (s := true) rfl rfl 0
  have r := isConst_sval hg hK.c255 (C := C) (k := 13) (s := true) rfl rfl 0
  fstep hg.compare ha l (by decide) hC.base.exm hC.sg1 .GREATEREQ rfl with c1 h1
  fstep hg.cast h1.val (by decide) u2 (k' := 2) rfl (s' := false) rfl (by rw [hC.ex1]; intro h; cases h) (fun _ => hC.sg2.symm) with f1 h2
  fstep hg.compare ha r (by decide) hC.base.exm hC.sg1 .GREATER rfl with c2 h3
  fstep hg.cast h3.val (by decide) u2 (k' := 2) rfl (s' := false) rfl (by rw [hC.ex1]; intro h; cases h) (fun _ => hC.sg2.symm) with f2 h4
  fstep hg.add h2 h4.val (by decide) hC.ex2 (.inr rfl) with s h5
  have e1 : numOf true (BitVec.ofInt 13 (constInt (sint 13) (-256))) = -256 := by decide
  have e2 : numOf true (BitVec.ofInt 13 (constInt (sint 13) 255)) = 255 := by decide
  have hsel : ∀ inp t, (BitVec.ofInt 2 (numOf false (BitVec.ofBool (cmp .GREATEREQ (numOf true (x inp t)) (numOf true (BitVec.ofInt 13 (constInt (sint 13) (-256))))))) +
      BitVec.ofInt 2 (numOf false (BitVec.ofBool (cmp .GREATER (numOf true (x inp t)) (numOf true (BitVec.ofInt 13 (constInt (sint 13) 255))))))).toNat =
      if (x inp t).toInt < -256 then 0 else if 255 < (x inp t).toInt then 2 else 1 := by
    intro inp t
    rw [e1, e2]
    simp only [cmp, numOf, if_true]
    by_cases b1 : (x inp t).toInt < -256
    · rw [if_pos b1, decide_eq_false (by omega), decide_eq_false (by omega)]; decide
    · rw [if_neg b1]
      by_cases b2 : 255 < (x inp t).toInt
      · rw [if_pos b2, decide_eq_true (by omega), decide_eq_true (by omega)]; decide
      · rw [if_neg b2, decide_eq_true (by omega), decide_eq_false (by omega)]; decide
  refine FDoes.weaken (hg.mux (m := 13) (s := true) h5 (by decide) (.cons l (.cons ha.val (.cons r .nil))) ?_ (by simp) (.inl (by simp)) hC.ex2 hC.base.exm) ?_
  · intro inp _ t _
    simp only [List.length_cons, List.length_nil]
    rw [hsel]
    split
    · decide
    · split <;> decide
  · intro n w' _ _ h
    refine h.congr fun inp _ t _ => ?_
    simp only [Std.mux]
    rw [hsel]
    unfold clip13 clip9
    split
    · show BitVec.ofInt 13 (constInt (sint 13) (-256)) = BitVec.ofInt 13 (-256); decide
    · split
      · show BitVec.ofInt 13 (constInt (sint 13) 255) = BitVec.ofInt 13 255; decide
      · simp [BitVec.ofInt_toInt]

theorem ClipCfg.shiftClip (hC : ClipCfg C) (hg : FGood F C N w) {K : IdctConsts} (hK : ConstsAt w 13 K) {a b : Nat} {x y : Env → Int → BitVec 32}
    (ha : S32 C w a x) (hb : S32 C w b y) (op : OpType) (hop : op = .ADD ∨ op = .SUB) :
    FDoes F C (shiftClip F (sint 13) K op a b) w (fun _ => N)
      (fun n w' => Str C w' n true 0 (fun inp t =>
        clip13 (((if op = .ADD then x inp t + y inp t else x inp t - y inp t).sshiftRight 14).signExtend 13))) := by
  unfold Flat.shiftClip
  fstep hC.base.shiftCast hg ha hb (sh := 14) (by decide) op hop with v hv
  exact hC.iclp hg hK hv

theorem ClipCfg.col (hC : ClipCfg C) (hg : FGood F C N w) {K : IdctConsts} (hK : ConstsAt w 13 K) {v : Nat → Nat}
    {x : Nat → Env → Int → BitVec 13} (hv : RowAt C w true v x) :
    FDoes F C (colPass F (sint 13) K v) w (fun _ => N) (fun ys w' => ys.length = 8 ∧
      ∀ j < 8, Str C w' (ys.getD j 0) true 0 (fun inp t => clip13 ((idctCol (fun i => (x i inp t).signExtend 32) j).signExtend 13))) := by
  have hB := hC.base
  have hk := hB.exm
  unfold colPass
  fstep hB.cast hg (hv 0 (by decide)) hk with a0 g0
  fstep IdctCfg.shl hg g0 (by decide) (by decide) with b0 g1
  fstep hB.addc hg g1 hK.c8192 8192 with x0 h0
  fstep hB.cast hg (hv 4 (by decide)) hk with a1 g2
  fstep IdctCfg.shl hg g2 (by decide) (by decide) with x1 h1
  clear g0 g1 g2
  fstep hB.cast hg (hv 6 (by decide)) hk with x2 h2
  fstep hB.cast hg (hv 2 (by decide)) hk with x3 h3
  fstep hB.cast hg (hv 1 (by decide)) hk with x4 h4
  fstep hB.cast hg (hv 7 (by decide)) hk with x5 h5
  fstep hB.cast hg (hv 5 (by decide)) hk with x6 h6
  fstep hB.cast hg (hv 3 (by decide)) hk with x7 h7
  clear hv
  -- first stage
  fstep hB.add hg h4 h5.val with s1 j1
  fstep hB.mulc hg j1 hK.W7 565 with m1 j2
  fstep hB.addc hg j2 hK.c4 4 with x8 h8
  clear j1 j2
  fstep hg.fold hK.W1 hK.W7 rfl rfl with d1 k1
  fstep hB.mulc hg h4 k1 (2841 - 565) with m1 j1
  clear k1
  fstep hB.add hg h8 j1.val with s2 j2
  fstep IdctCfg.shr hg j2 (by decide) with x4' h4'
  clear j1 j2 h4
  fstep hg.fold hK.W1 hK.W7 rfl rfl with d1 k1
  fstep hB.mulc hg h5 k1 (2841 + 565) with m1 j1
  clear k1
  fstep hB.sub hg h8 j1.val with s2 j2
  fstep IdctCfg.shr hg j2 (by decide) with x5' h5'
  clear j1 j2 h5 h8
  fstep hB.add hg h6 h7.val with s1 j1
  fstep hB.mulc hg j1 hK.W3 2408 with m1 j2
  fstep hB.addc hg j2 hK.c4 4 with x8 h8
  clear j1 j2
  fstep hg.fold hK.W3 hK.W5 rfl rfl with d1 k1
  fstep hB.mulc hg h6 k1 (2408 - 1609) with m1 j1
  clear k1
  fstep hB.sub hg h8 j1.val with s2 j2
  fstep IdctCfg.shr hg j2 (by decide) with x6' h6'
  clear j1 j2 h6
  fstep hg.fold hK.W3 hK.W5 rfl rfl with d1 k1
  fstep hB.mulc hg h7 k1 (2408 + 1609) with m1 j1
  clear k1
  fstep hB.sub hg h8 j1.val with s2 j2
  fstep IdctCfg.shr hg j2 (by decide) with x7' h7'
  clear j1 j2 h7 h8
  -- second stage
  fstep hB.add hg h0 h1.val with x8 h8
  fstep hB.sub hg h0 h1.val with x0' h0'
  clear h0 h1
  fstep hB.add hg h3 h2.val with s1 j1
  fstep hB.mulc hg j1 hK.W6 1108 with m1 j2
  fstep hB.addc hg j2 hK.c4 4 with x1 h1
  clear j1 j2
  fstep hg.fold hK.W2 hK.W6 rfl rfl with d1 k1
  fstep hB.mulc hg h2 k1 (2676 + 1108) with m1 j1
  clear k1
  fstep hB.sub hg h1 j1.val with s2 j2
  fstep IdctCfg.shr hg j2 (by decide) with x2' h2'
  clear j1 j2 h2
  fstep hg.fold hK.W2 hK.W6 rfl rfl with d1 k1
  fstep hB.mulc hg h3 k1 (2676 - 1108) with m1 j1
  clear k1
  fstep hB.add hg h1 j1.val with s2 j2
  fstep IdctCfg.shr hg j2 (by decide) with x3' h3'
  clear j1 j2 h3 h1
  fstep hB.add hg h4' h6'.val with x1' h1'
  fstep hB.sub hg h4' h6'.val with x4'' h4''
  clear h4' h6'
  fstep hB.add hg h5' h7'.val with x6'' h6''
  fstep hB.sub hg h5' h7'.val with x5'' h5''
  clear h5' h7'
  -- third stage
  fstep hB.add hg h8 h3'.val with x7'' h7''
  fstep hB.sub hg h8 h3'.val with x8'' h8''
  clear h8 h3'
  fstep hB.add hg h0' h2'.val with x3'' h3''
  fstep hB.sub hg h0' h2'.val with x0'' h0''
  clear h0' h2'
  fstep hB.add hg h4'' h5''.val with s1 j1
  fstep hB.mulc hg j1 hK.c181 181 with m1 j2
  fstep hB.addc hg j2 hK.c128 128 with r1 j3
  fstep IdctCfg.shr hg j3 (by decide) with x2'' h2''
  clear j1 j2 j3
  fstep hB.sub hg h4'' h5''.val with s1 j1
  fstep hB.mulc hg j1 hK.c181 181 with m1 j2
  fstep hB.addc hg j2 hK.c128 128 with r1 j3
  fstep IdctCfg.shr hg j3 (by decide) with x4''' h4'''
  clear j1 j2 j3 h4'' h5''
  -- fourth stage
  fstep hC.shiftClip hg hK h7'' h1' .ADD (.inl rfl) with y0 r0
  fstep hC.shiftClip hg hK h3'' h2'' .ADD (.inl rfl) with y1 r1
  fstep hC.shiftClip hg hK h0'' h4''' .ADD (.inl rfl) with y2 r2
  fstep hC.shiftClip hg hK h8'' h6'' .ADD (.inl rfl) with y3 r3
  fstep hC.shiftClip hg hK h8'' h6'' .SUB (.inr rfl) with y4 r4
  fstep hC.shiftClip hg hK h0'' h4''' .SUB (.inr rfl) with y5 r5
  fstep hC.shiftClip hg hK h3'' h2'' .SUB (.inr rfl) with y6 r6
  fstep hC.shiftClip hg hK h7'' h1' .SUB (.inr rfl) with y7 r7
  refine FDoes.pure hg ⟨rfl, fun j hj => ?_⟩
  match j, hj with
  | 0, _ => exact r0
  | 1, _ => exact r1
  | 2, _ => exact r2
  | 3, _ => exact r3
  | 4, _ => exact r4
  | 5, _ => exact r5
  | 6, _ => exact r6
  | 7, _ => exact r7

end

end Verif.Flat
