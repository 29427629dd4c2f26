import Verif.Flat.Col
/-
`IDCT`.
-/
namespace Verif.Flat
open Verif.Dfcxx Verif.Flow Verif.Kernels

section
variable {F : FloatOps} {C : Cfg} {w : World} {N : List Nat}

theorem foldl_setCol (ys : List Nat) (i : Nat) (hi : i < 8) : ∀ (n : Nat) (vs : List Nat), n ≤ 8 → vs.length = 64 →
    ((List.range n).foldl (fun vs j => vs.set (8 * j + i) (ys.getD j 0)) vs).length = 64 ∧
    ∀ j, ((List.range n).foldl (fun vs j => vs.set (8 * j + i) (ys.getD j 0)) vs).getD j 0 =
      if j < 8 * n ∧ j % 8 = i then ys.getD (j / 8) 0 else vs.getD j 0
  | 0, vs, _, h => by simp only [List.range_zero, List.foldl_nil, h, true_and]; intro j; rw [if_neg (by omega)]
  | n + 1, vs, hn, h => by
    obtain ⟨h1, h2⟩ := foldl_setCol ys i hi n vs (by omega) h
    rw [List.range_succ, List.foldl_append]
    simp only [List.foldl_cons, List.foldl_nil]
    refine ⟨by rw [List.length_set, h1], fun j => ?_⟩
    rw [List.getD_eq_getElem?_getD, List.getElem?_set, h1]
    by_cases hj : 8 * n + i = j
    · rw [if_pos hj, if_pos (by omega), if_pos (by omega), show j / 8 = n by omega]
      rfl
    · rw [if_neg hj, ← List.getD_eq_getElem?_getD, h2 j]
      by_cases hc : j < 8 * n ∧ j % 8 = i
      · rw [if_pos hc, if_pos (by omega)]
      · rw [if_neg hc, if_neg (by omega)]

theorem assignCol_spec {vs ys : List Nat} {i : Nat} (hl : vs.length = 64) (hi : i < 8) : (assignCol vs i ys).length = 64 ∧
    ∀ j, j < 64 → (assignCol vs i ys).getD j 0 = if j % 8 = i then ys.getD (j / 8) 0 else vs.getD j 0 := by
  obtain ⟨h1, h2⟩ := foldl_setCol ys i hi 8 vs (by omega) hl
  refine ⟨h1, fun j hj => (h2 j).trans ?_⟩
  by_cases h : j % 8 = i
  · rw [if_pos ⟨by omega, h⟩, if_pos h]
  · rw [if_neg fun hh => h hh.2, if_neg h]

/-- Column by column. -/
def colsOf (x : Nat → Env → Int → BitVec 13) (j : Nat) (inp : Env) (t : Int) : BitVec 13 :=
  clip13 ((idctCol (fun i => (x (8 * i + j % 8) inp t).signExtend 32) (j / 8)).signExtend 13)

theorem ClipCfg.cols (hC : ClipCfg C) (hg : FGood F C N w) {K : IdctConsts} (hK : ConstsAt w 13 K) {vs : List Nat}
    {x : Nat → Env → Int → BitVec 13} (hlen : vs.length = 64) (hv : MatAt C w true 0 64 vs x) :
    FDoes F C (colLoop F (sint 13) K vs) w (fun _ => N)
      (fun vs' w' => vs'.length = 64 ∧ MatAt C w' true 0 64 vs' (colsOf x)) := by
  unfold colLoop
  refine FDoes.weaken (foldB_does (I := fun i vs w => vs.length = 64 ∧ ConstsAt w 13 K ∧
    (∀ j < 64, SVal C w (vs.getD j 0) true 0 (if j % 8 < i then colsOf x j else x j))) (List.range 8) 0 vs w hg
      ⟨hlen, hK, fun j h1 => by rw [if_neg (by omega)]; exact hv j (by omega) h1⟩ ?_) ?_
  · intro i hi vs w hg ⟨hlen, hK, h1⟩
    simp only [List.length_range] at hi
    simp only [List.getElem_range, Nat.zero_add] at h1 ⊢
    refine (hC.col hg hK (v := fun j => vs.getD (8 * j + i) 0) (x := fun j => x (8 * j + i)) (fun j hj => ?_)).bind
      fun ys w' g' s' ⟨hy, h3⟩ => ?_
    · have := h1 (8 * j + i) (by omega)
      rwa [if_neg (by omega)] at this
    obtain ⟨a1, a2⟩ := assignCol_spec (ys := ys) hlen hi
    refine FDoes.pure g' ⟨a1, hK.mono hg s', fun j b1 => ?_⟩
    rw [a2 j b1]
    by_cases hj : j % 8 = i
    · rw [if_pos hj, if_pos (by omega)]
      have e := (h3 (j / 8) (by omega)).val
      have he : colsOf x j = fun inp t => clip13 ((idctCol (fun u => (x (8 * u + i) inp t).signExtend 32) (j / 8)).signExtend 13) := by
        funext inp t; unfold colsOf; rw [hj]
      rw [he]
      exact e
    · rw [if_neg hj]
      have := (h1 j b1).mono hg s'
      by_cases hl : j % 8 < i
      · rw [if_pos hl] at this; rw [if_pos (by omega)]; exact this
      · rw [if_neg hl] at this; rw [if_neg (by omega)]; exact this
  · rintro vs' w' - - ⟨h1, -, h3⟩
    refine ⟨h1, fun j _ hj => ?_⟩
    have := h3 j hj
    rwa [if_pos (by simp; omega)] at this

/-- Widths that are equal. -/
theorem SVal.castW {k k' : Nat} (e : k = k') {n : Nat} {s : Bool} {d : Int} {x : Env → Int → BitVec k} (h : SVal C w n s d x) :
    SVal C w n s d (fun inp t => (x inp t).cast e) := by
  subst e; exact h

theorem packed_congr {f g : Nat → BitVec 9} : ∀ n, (∀ i < n, f i = g i) → packed f n = packed g n
  | 0, _ => rfl
  | n + 1, h => by unfold packed; rw [h n (by omega), packed_congr n fun i hi => h i (by omega)]

theorem toInt_13 (x : BitVec 13) : -4096 ≤ x.toInt ∧ x.toInt < 4096 := by
  have := x.toInt_lt (w := 13); have := x.le_toInt (w := 13)
  omega

/-- The nine lower bits of a clipped value. -/
theorem clip13_low (x : BitVec 13) : BitVec.ofInt 9 (numOf false (clip13 x)) = BitVec.ofInt 9 (clip9 x.toInt) := by
  unfold clip13 numOf
  generalize clip9 x.toInt = z
  simp only [Bool.false_eq_true, if_false]
  refine BitVec.eq_of_toNat_eq ?_
  simp only [BitVec.toNat_ofInt]
  norm_num
  omega

end

/-- The configuration of `IDCT`. -/
def idctCfg : Cfg := ⟨true, false, [("x", 768)], fun k => k == 32 || k == 13 || k == 768, fun k => k == 576⟩

/-- Coefficient `i` of the packed input, twelve bits, signed. -/
def coef12 (port : Env) (t i : Nat) : BitVec 32 := ((BitVec.ofNat 768 (port "x" t)).extractLsb' (12 * i) 12).signExtend 32

theorem s768 : TypeOK (sint 768) := ⟨by decide, by decide, by intro e f h; cases h⟩
theorem s576 : TypeOK (sint 576) := ⟨by decide, by decide, by intro e f h; cases h⟩
theorem r9 : TypeOK (.rawBits 9) := ⟨by decide, by decide, by intro e f h; cases h⟩

/-- The output of `IDCT`. -/
def idctOut : OutPort := ⟨"out", 576, true, 0, fun port t => packed (idct2D 13 (coef12 port t)) 64⟩

/-- Loops, counted from the start. -/
theorem foldB_does0 {F : FloatOps} {C : Cfg} {N : List Nat} {σ α : Type} {f : σ → α → Build σ} (I : Nat → σ → World → Prop) (l : List α) (s : σ) (w : World) (hg : FGood F C N w) (h : I 0 s w)
    (hf : ∀ (j : Nat) (hj : j < l.length) (s : σ) (w : World), FGood F C N w → I j s w →
      FDoes F C (f s l[j]) w (fun _ => N) (fun s' w' => I (j + 1) s' w')) :
    FDoes F C (foldB f l s) w (fun _ => N) (fun s' w' => I l.length s' w') := by
  have := foldB_does I l 0 s w hg h fun j hj s w hg h => by
    rw [Nat.zero_add] at h ⊢
    exact hf j hj s w hg h
  rwa [Nat.zero_add] at this

/-- The concatenation. -/
theorem concat_does {F : FloatOps} {w3 w : World} {v : Nat → Env → Int → BitVec 9} {vs : List Nat} {first : Nat} (hg : FGood F idctCfg [] w) (hs : FExt w3 w)
    (hfirst : SVal idctCfg w first false 0 (v 0))
    (el : ∀ (w : World), FGood F idctCfg [] w → FExt w3 w → ∀ j < 64,
      FDoes F idctCfg (call1 F (.cast (vs.getD j 0) (.rawBits 9) false)) w (fun _ => []) (fun n w' => Str idctCfg w' n false 0 (v j))) :
    FDoes F idctCfg (foldB (fun cur i => do
      let casted ← call1 F (.cast (vs.getD (i + 1) 0) (.rawBits 9) false)
      call1 F (.cat casted cur)) (List.range 63) first) w (fun _ => [])
      (fun n w' => SVal (k := 576) idctCfg w' n false 0 (fun inp t => packed (fun j => v j inp t) 64)) := by
  refine FDoes.weaken (foldB_does0 (I := fun i n w => FExt w3 w ∧ SVal (k := 9 * (i + 1)) idctCfg w n false 0
    (fun inp t => packed (fun j => v j inp t) (i + 1))) (List.range 63) first w hg ⟨hs, ?_⟩ ?_) ?_
  · refine SVal.congr (SVal.castW (k := 9) (k' := 9 * (0 + 1)) rfl hfirst) fun inp _ t _ => ?_
    refine BitVec.eq_of_toNat_eq ?_
    simp [packed]
  · intro i hi n w hg ⟨hs, hn⟩
    rw [List.length_range] at hi
    rw [List.getElem_range]
    refine (el w hg hs (i + 1) (by omega)).bind fun e w6 g6 s6 h6 => ?_
    refine FDoes.weaken (g6.cat h6.val (hn.mono hg s6) (by decide) (by omega) rfl ?_ ?_) ?_
    · simp only [idctCfg, beq_eq_false_iff_ne]; omega
    · intro _
      simp only [idctCfg, Bool.or_eq_false_iff, beq_eq_false_iff_ne]; omega
    · intro r w7 _ s7 h7
      exact ⟨hs.trans (s6.trans s7), h7.val.castW (by omega)⟩
  · intro n w' _ _ h
    exact h.2

/-- The code of `IDCT` establishes its output stream. -/
theorem idct_does {F : FloatOps} : FDoes F idctCfg (idct F) World.init (fun _ => []) (fun _ w => ∀ o ∈ [idctOut], Established idctCfg w o) := by
  have hg := fgood_init F idctCfg
  have hC : ClipCfg idctCfg := ⟨⟨rfl, rfl, rfl, rfl, rfl, by decide, by decide⟩, rfl, rfl, rfl, rfl⟩
  unfold idct
  fstep idctConsts_does hC.base hg with K hK
  fstep hg.input (k := 768) (s := true) s768 rfl rfl (name := "x") (List.mem_singleton.mpr rfl) rfl rfl with x hx
  refine (forEach_does (R := fun i n w => Str idctCfg w n false 0 (fun inp t => (BitVec.ofNat 768 (inp "x" t.toNat)).extractLsb' (i * 12) 12))
    (fun i n w w' g h x => h.mono g x) (List.range 64) _ hg fun i hi w1 g1 s1 => g1.bits (hx.mono hg s1).val (by decide) (by omega) (by omega)
      (by have := List.mem_range.mp hi; omega) (by decide) (fun _ => rfl)).bind fun vs w1 g1 s1 h1 => ?_
  carry hg s1
  have hvs : MatAt idctCfg w1 false 0 64 vs (fun i inp t => (BitVec.ofNat 768 (inp "x" t.toNat)).extractLsb' (i * 12) 12) := by
    intro j _ hj
    have := (forall₂_getD h1 (j := j) (by simpa using hj)).val
    rwa [List.getElem_range] at this
  have hlen : vs.length = 64 := by rw [← h1.length_eq, List.length_range]
  refine (hC.base.rows g1 hK hlen hvs rfl (by decide) (by decide)).bind fun vs' w2 g2 s2 ⟨hlen', hK2, h2⟩ => ?_
  refine (hC.cols g2 hK2 hlen' h2).bind fun vs'' w3 g3 s3 ⟨hlen'', h3⟩ => ?_
  clear hlen hlen' h1 hvs s1 s2 s3 hx hK hK2 h2
  set v : Nat → Env → Int → BitVec 9 := fun i inp t => idct2D 13 (coef12 inp t.toNat) i with hv
  have conv : ∀ j < 64, ∀ inp t, BitVec.ofInt 9 (numOf false (colsOf (rowsOf 13 fun i inp (t : Int) =>
      (BitVec.ofNat 768 (inp "x" t.toNat)).extractLsb' (i * 12) 12) j inp t)) = v j inp t := by
    intro j hj inp t
    unfold colsOf
    rw [clip13_low, hv]
    unfold idct2D rowsOf coef12
    simp only
    have a1 : ∀ i, (8 * i + j % 8) / 8 = i := by omega
    have a2 : ∀ i, (8 * i + j % 8) % 8 = j % 8 := by omega
    simp only [a1, a2, Nat.mul_comm 12]
  have el : ∀ (w : World), FGood F idctCfg [] w → FExt w3 w → ∀ j < 64, FDoes F idctCfg (call1 F (.cast (vs''.getD j 0) (.rawBits 9) false)) w (fun _ => [])
      (fun n w' => Str idctCfg w' n false 0 (v j)) := by
    intro w g s j hj
    refine FDoes.weaken (g.cast ((h3 j (by omega) hj).mono g3 s) (by decide) r9 (k' := 9) rfl (s' := false) rfl (by decide) (fun _ => rfl)) ?_
    intro n w' _ _ h
    exact h.congr fun inp _ t _ => conv j hj inp t
  refine (el w3 g3 (.refl _) 0 (by decide)).bind fun first w4 g4 s4 h4 => ?_
  refine (concat_does (w3 := w3) (v := v) g4 s4 h4.val el).bind fun cc w5 g5 s5 h5 => ?_
  have hg := g5
  fstep hg.output s576 (by decide) with o ho
  fstep hg.cast h5 (by decide) s576 (k' := 576) rfl (s' := true) rfl (by decide) (by decide) with y hy
  replace hy := hy.congr fun inp _ t _ => ofInt_numOf (k := 576) true _
  fstep hg.connect ho hy.val rfl rfl with u hu
  refine FDoes.pure (by simpa using hg) ?_
  intro o' ho'
  rw [List.mem_singleton] at ho'
  subst ho'
  exact hu.established (by decide) fun inp _ t _ => rfl

/-- Every design a scheduling pass produces for `IDCT` shows the two-dimensional transform of the packed coefficients. -/
theorem idct_realizes {F : FloatOps} : ScheduledRealizes (idct F) true [("x", 768)] [idctOut] :=
  FDoes.scheduled (C := idctCfg) (F := F) idct_does (.inr rfl)

end Verif.Flat
