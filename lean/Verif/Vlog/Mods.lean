import Verif.Vlog.Sem
import Verif.Vlog.Source
/-
What the modules of the library compute, in every run.
-/
namespace Verif.Vlog
open Verif.Hw Verif.Tpl

/-! ### Expressions -/

theorem assigned_extended {D : Scope} {σ : Store} {v e : Expr} {b : Bool} {w k W : Nat} {x : BitVec w} (hv : size D v = some 1) (hu : unsized v = false)
    (hb : eval D σ 1 (signed D v) v = some b.toNat) (he : size D e = some w) (hu' : unsized e = false) (hx : eval D σ w (signed D e) e = some x.toNat) :
    assigned D σ W (extended k v e) = some ((repCat k b x).setWidth W).toNat := by
  have h1 : size D (.rep k (.cat1 v)) = some (k * 1) := by simp [size, hu, hv]
  have h2 : size D (.cat1 e) = some w := by simp [size, hu', he]
  have h3 : size D (extended k v e) = some (k * 1 + w) := by simp only [extended, size, unsized, Bool.false_eq_true, if_false] at h1 h2 ⊢; rw [h1, h2]
  have h4 : eval D σ (k * 1) (signed D (.rep k (.cat1 v))) (.rep k (.cat1 v)) = some (copies 1 b.toNat k) := by
    have h4 : eval D σ 1 (signed D (.cat1 v)) (.cat1 v) = some b.toNat := by
      rw [eval]
      simp only [hv, hu, hb, Option.map_some, Bool.false_eq_true, if_false]
      rw [extend_same _ (by cases b <;> decide)]
    have h5 : copies 1 b.toNat k < 2 ^ (k * 1) := by
      cases b
      · show copies 1 0 k < _
        rw [copies_zero]; exact Nat.two_pow_pos _
      · show copies 1 1 k < _
        rw [copies_one, Nat.mul_one]
        have := Nat.two_pow_pos k
        omega
    rw [eval]
    simp only [size, hu, hv, h4, Option.map_some, Bool.false_eq_true, if_false]
    rw [extend_same _ h5]
  have h5 : eval D σ w (signed D (.cat1 e)) (.cat1 e) = some x.toNat := by
    rw [eval]
    simp only [he, hu', hx, Option.map_some, Bool.false_eq_true, if_false]
    rw [extend_same _ x.isLt]
  unfold assigned
  rw [h3]
  simp only [extended]
  rw [eval]
  simp only [h1, h2, h4, h5, Option.map_some, unsized, Bool.false_eq_true, if_false]
  rw [show signed D (.cat (.rep k (.cat1 v)) (.cat1 e)) = false from rfl, extend_false, BitVec.toNat_setWidth, repCat_toNat,
    Nat.mod_mod_of_dvd _ (Nat.pow_dvd_pow _ (Nat.le_max_left _ _))]

theorem eval_lit0 (D : Scope) (σ : Store) (s : Bool) : eval D σ 1 s (.lit 1 0) = some (false.toNat) := by
  rw [eval, if_pos (by decide), extend_same _ (by decide)]
  rfl

theorem eval_id {D : Scope} {σ : Store} {x : String} {s s' : Bool} {w : Nat} (h : D x = some (.vec s w)) {v : BitVec w} (hv : σ.vec x = v.toNat) :
    eval D σ w s' (.id x) = some v.toNat := by
  rw [eval, h]
  simp only [hv]
  rw [extend_same _ v.isLt]

theorem bit_toNat {w : Nat} (v : BitVec w) (k : Nat) : v.toNat / 2 ^ k % 2 = (v.getLsbD k).toNat := by
  rw [BitVec.getLsbD, Nat.testBit_eq_decide_div_mod_eq]
  rcases Nat.mod_two_eq_zero_or_one (v.toNat / 2 ^ k) with h | h <;> simp [h]

/-- The top bit of a vector. -/
theorem eval_top {D : Scope} {σ : Store} {x : String} {s s' : Bool} {w : Nat} (h : D x = some (.vec s w)) (h0 : 0 < w) (hw : w ≤ 2 ^ 31) {v : BitVec w}
    (hv : σ.vec x = v.toNat) : eval D σ 1 s' (.sel x (.num (w - 1))) = some (v.getLsbD (w - 1)).toNat := by
  rw [eval]
  simp only [size, if_pos (show w - 1 < 2 ^ 31 by omega), h, eval, Option.map_some, hv]
  rw [extend_same _ (by omega), toInt_small (by omega), if_pos (by omega), Int.toNat_natCast, bit_toNat, extend_same _ (by cases v.getLsbD (w - 1) <;> decide)]

theorem size_filler {D : Scope} {x : String} {s s' : Bool} {w : Nat} (h : D x = some (.vec s w)) (h0 : 0 < w) (hw : w ≤ 2 ^ 31) :
    size D (filler s' x (w - 1)) = some 1 := by
  cases s'
  · simp [filler, size]
  · simp only [filler, if_true, size, h, if_pos (show w - 1 < 2 ^ 31 by omega)]

theorem unsized_filler (s : Bool) (x : String) (a : Nat) : unsized (filler s x a) = false := by
  cases s <;> rfl

theorem eval_filler {D : Scope} {σ : Store} {x : String} {s s' : Bool} {w : Nat} (h : D x = some (.vec s w)) (h0 : 0 < w) (hw : w ≤ 2 ^ 31) {v : BitVec w}
    (hv : σ.vec x = v.toNat) (s'' : Bool) :
    eval D σ 1 s'' (filler s' x (w - 1)) = some (if s' then v.getLsbD (w - 1) else false).toNat := by
  cases s'
  · exact eval_lit0 D σ _
  · exact eval_top h h0 hw hv

theorem assigned_part {D : Scope} {σ : Store} {x : String} {s : Bool} {w k : Nat} (h : D x = some (.vec s w)) (hk : 0 < k) (hw : k ≤ w) {v : BitVec w}
    (hv : σ.vec x = v.toNat) : assigned D σ k (.part x (k - 1) 0) = some (v.extractLsb' 0 k).toNat := by
  have e : k - 1 - 0 + 1 = k := by omega
  simp only [assigned, size, h, if_pos (show 0 ≤ k - 1 ∧ k - 1 < w by omega), eval, Option.map_some, hv, e, Nat.max_self]
  rw [extend_same _ (Nat.mod_lt _ (Nat.two_pow_pos _)), BitVec.extractLsb'_toNat, Nat.shiftRight_zero, Nat.pow_zero, Nat.div_one, Nat.mod_mod]

/-- The last register. -/
theorem eval_last {D : Scope} {σ : Store} {w n : Nat} (hr : D "r" = some (.mem false w (n + 1))) (hn : n < 2 ^ 31) {v : BitVec w}
    (hv : σ.mem "r" n = v.toNat) (s : Bool) : eval D σ w s (.sel "r" (.num n)) = some v.toNat := by
  rw [eval]
  simp only [size, if_pos hn, eval, Option.map_some, hr]
  rw [extend_same _ (by omega), toInt_small (by omega), if_pos (by omega), Int.toNat_natCast, hv, extend_same _ v.isLt]

theorem eval_lastTop {D : Scope} {σ : Store} {w n : Nat} (hr : D "r" = some (.mem false w (n + 1))) (hn : n < 2 ^ 31) (h0 : 0 < w) (hw : w ≤ 2 ^ 31)
    {v : BitVec w} (hv : σ.mem "r" n = v.toNat) (s : Bool) : eval D σ 1 s (.sel2 "r" (.num n) (.num (w - 1))) = some (v.getLsbD (w - 1)).toNat := by
  rw [eval]
  simp only [size, if_pos hn, if_pos (show w - 1 < 2 ^ 31 by omega), eval, Option.map_some, hr]
  rw [extend_same _ (by omega), extend_same _ (by omega), toInt_small (by omega), toInt_small (by omega), if_pos (by omega), Int.toNat_natCast,
    Int.toNat_natCast, hv, bit_toNat, extend_same _ (by cases v.getLsbD (w - 1) <;> decide)]

/-! ### Runs -/

/-- The registers of a module with a shift register. -/
theorem run_shift {m : Mod} {ρ : Nat → Store} (h : Run m ρ) {w n : Nat} (hi : m.scope "i" = some (.vec true 32))
    (hr : m.scope "r" = some (.mem false w (n + 1))) (hn : n < 2 ^ 31) {e : Expr} (hs : shiftStmt n e ∈ m.procs) (hm : "r" ∈ m.regs) {v : Nat → BitVec w}
    (he : ∀ t, assigned m.scope (setI (ρ t) 0) w e = some (v t).toNat) (t : Nat) :
    (ρ t).mem "r" n = (shiftState n (fun i => BitVec.ofNat w ((ρ 0).mem "r" i)) v t n).toNat := by
  have key : ∀ t, (ρ t).mem "r" = shiftState n ((ρ 0).mem "r") (fun t => (v t).toNat) t := by
    intro t
    induction t with
    | zero => rfl
    | succ t ih =>
      obtain ⟨τ, hτ, hm'⟩ := h.edges _ hs t
      rw [(hm' _ hm).2, shift_edge hi hr hn (fun j hj => h.fitsMem t _ _ _ _ hr j (by omega)) (he t) hτ, ih]
      rfl
  have h1 := shiftState_map (BitVec.ofNat w) n ((ρ 0).mem "r") (fun t => (v t).toNat) t n
  simp only [BitVec.ofNat_toNat, BitVec.setWidth_eq] at h1
  rw [← h1, ← key, BitVec.toNat_ofNat, Nat.mod_eq_of_lt (h.fitsMem t _ _ _ _ hr n (by omega))]

theorem assigned_id {D : Scope} {σ : Store} {x : String} {s : Bool} {w : Nat} (h : D x = some (.vec s w)) {v : BitVec w} (hv : σ.vec x = v.toNat) :
    assigned D σ w (.id x) = some v.toNat := by
  simp only [assigned, size, h, Nat.max_self, eval_id h hv, Option.map_some]
  rw [Nat.mod_eq_of_lt v.isLt]

/-- What a continuous assignment makes of a vector. -/
theorem run_assign {m : Mod} {ρ : Nat → Store} (h : Run m ρ) {x : String} {e : Expr} (hm : .assign x e ∈ m.items) {s : Bool} {w : Nat}
    (hx : m.scope x = some (.vec s w)) {t : Nat} {v : Nat} (hv : assigned m.scope (ρ t) w e = some v) : (ρ t).vec x = v := by
  obtain ⟨s', w', hx', ha⟩ := h.assigns x e hm t
  rw [hx] at hx'
  cases hx'
  rw [hv] at ha
  exact (Option.some.inj ha).symm

/-- A FIFO. -/
theorem fifo_run {x : String} {w L : Nat} (hw : 0 < w) (hL : L ≠ 0) (hL' : L ≤ 2 ^ 31) {ρ : Nat → Store} (h : Run (fifoMod x (w - 1) (L - 1)) ρ)
    {arg : Nat → BitVec w} (ha : ∀ t, (ρ t).vec "arg1" = (arg t).toNat) (t : Nat) :
    (ρ t).vec "res1" = (fifoOut L (fun i => BitVec.ofNat w ((ρ 0).mem "r" i)) arg t).toNat := by
  have ew : w - 1 + 1 = w := by omega
  have hr : (fifoMod x (w - 1) (L - 1)).scope "r" = some (.mem false w (L - 1 + 1)) := by rw [← ew]; kernel_rfl
  have hi : (fifoMod x (w - 1) (L - 1)).scope "i" = some (.vec true 32) := by kernel_rfl
  have ha1 : (fifoMod x (w - 1) (L - 1)).scope "arg1" = some (.vec false w) := by rw [← ew]; kernel_rfl
  have hres : (fifoMod x (w - 1) (L - 1)).scope "res1" = some (.vec false w) := by rw [← ew]; kernel_rfl
  have hst := run_shift h hi hr (by omega) (e := .id "arg1") List.mem_cons_self (List.mem_cons_self) (v := arg)
    (fun t => assigned_id ha1 (by rw [setI_other _ _ (by decide)]; exact ha t))
  refine run_assign h (e := .sel "r" (.num (L - 1))) (by simp [fifoMod]) hres ?_
  have hsz : size (fifoMod x (w - 1) (L - 1)).scope (.sel "r" (.num (L - 1))) = some w := by
    simp only [size, hr, if_pos (show L - 1 < 2 ^ 31 by omega)]
  simp only [assigned, hsz, Nat.max_self, eval_last hr (by omega) (hst t), Option.map_some, fifoOut]
  rw [Nat.mod_eq_of_lt (BitVec.isLt _)]

/-- A cast without registers. -/
theorem combCast_run {x : String} {w1 w2 : Nat} {s : Bool} (h1 : 0 < w1) (h2 : 0 < w2) (h1' : w1 ≤ 2 ^ 31) {ρ : Nat → Store}
    (h : Run (combCastMod x (w1 - 1) (w2 - 1) (w2 - w1) (max w2 w1 - 1) s) ρ) {arg : Nat → BitVec w1} (ha : ∀ t, (ρ t).vec "arg1" = (arg t).toNat)
    (t : Nat) : (ρ t).vec "res1" = (combCast w2 s (arg t)).toNat := by
  have ew : w1 - 1 + 1 = w1 := by omega
  have ew2 : w2 - 1 + 1 = w2 := by omega
  have ec : max w2 w1 - 1 + 1 = max w2 w1 := by omega
  have ha1 : (combCastMod x (w1 - 1) (w2 - 1) (w2 - w1) (max w2 w1 - 1) s).scope "arg1" = some (.vec false (w1 - 1 + 1)) := by kernel_rfl
  have hres : (combCastMod x (w1 - 1) (w2 - 1) (w2 - w1) (max w2 w1 - 1) s).scope "res1" = some (.vec false (w2 - 1 + 1)) := by kernel_rfl
  have hcat : (combCastMod x (w1 - 1) (w2 - 1) (w2 - w1) (max w2 w1 - 1) s).scope "cat" = some (.vec false (max w2 w1 - 1 + 1)) := by kernel_rfl
  rw [ew] at ha1
  rw [ew2] at hres
  rw [ec] at hcat
  have hsz : size (combCastMod x (w1 - 1) (w2 - 1) (w2 - w1) (max w2 w1 - 1) s).scope (.id "arg1") = some w1 := by simp only [size, ha1]
  have h3 := run_assign h (x := "cat") (t := t) (e := extended (w2 - w1) (filler s "arg1" (w1 - 1)) (.id "arg1")) (by simp [combCastMod]) hcat (assigned_extended (size_filler ha1 h1 h1') (unsized_filler _ _ _)
    (eval_filler ha1 h1 h1' (ha t) _) hsz rfl (eval_id ha1 (ha t)))
  exact run_assign h (x := "res1") (e := .part "cat" (w2 - 1) 0) (by simp [combCastMod]) hres (assigned_part hcat h2 (Nat.le_max_left _ _) h3)

/-- A cast with registers. -/
theorem cast_run {x : String} {w1 w2 L : Nat} {s : Bool} (h1 : 0 < w1) (h2 : 0 < w2) (h1' : w1 ≤ 2 ^ 31) (hL' : L ≤ 2 ^ 31) {ρ : Nat → Store}
    (h : Run (castMod x (w1 - 1) (w2 - 1) (w2 - w1) (max w2 w1 - 1) (L - 1) s) ρ) {arg : Nat → BitVec w1} (ha : ∀ t, (ρ t).vec "arg1" = (arg t).toNat)
    (t : Nat) : (ρ t).vec "res1" = (castOut w2 s L (fun i => BitVec.ofNat w1 ((ρ 0).mem "r" i)) arg t).toNat := by
  have ew : w1 - 1 + 1 = w1 := by omega
  have ew2 : w2 - 1 + 1 = w2 := by omega
  have ec : max w2 w1 - 1 + 1 = max w2 w1 := by omega
  generalize hM : castMod x (w1 - 1) (w2 - 1) (w2 - w1) (max w2 w1 - 1) (L - 1) s = M at h
  have ha1 : M.scope "arg1" = some (.vec false (w1 - 1 + 1)) := by subst hM; kernel_rfl
  have hres : M.scope "res1" = some (.vec false (w2 - 1 + 1)) := by subst hM; kernel_rfl
  have hcat : M.scope "cat" = some (.vec false (max w2 w1 - 1 + 1)) := by subst hM; kernel_rfl
  have hi : M.scope "i" = some (.vec true 32) := by subst hM; kernel_rfl
  have hr : M.scope "r" = some (.mem false (w1 - 1 + 1) (L - 1 + 1)) := by subst hM; kernel_rfl
  rw [ew] at ha1 hr
  rw [ew2] at hres
  rw [ec] at hcat
  have hst := run_shift h hi hr (by omega) (e := .id "arg1") (by subst hM; simp [castMod, Mod.procs]) (by subst hM; simp [castMod, Mod.regs, Item.procedural])
    (v := arg) (fun t => assigned_id ha1 (by rw [setI_other _ _ (by decide)]; exact ha t))
  have hsz : size M.scope (.sel "r" (.num (L - 1))) = some w1 := by
    simp only [size, hr, if_pos (show L - 1 < 2 ^ 31 by omega)]
  have h3 := run_assign h (x := "cat") (t := t) (e := extended (w2 - w1) (filler s "arg1" (w1 - 1)) (.sel "r" (.num (L - 1))))
    (by subst hM; simp [castMod]) hcat (assigned_extended (size_filler ha1 h1 h1') (unsized_filler _ _ _)
    (eval_filler ha1 h1 h1' (ha t) _) hsz rfl (eval_last hr (by omega) (hst t) _))
  exact run_assign h (x := "res1") (e := .part "cat" (w2 - 1) 0) (by subst hM; simp [castMod]) hres (assigned_part hcat h2 (Nat.le_max_left _ _) h3)

/-! ### Operators -/

theorem isComp_eq (op : VOp) : (vBinOp op).isComp = op.isComp := by cases op <;> rfl

theorem isCompOp_eq (op : VOp) : isCompOp op = op.isComp := by cases op <;> rfl

theorem opWidth_rWidth (op : VOp) (w1 w2 : Nat) : opWidth op w1 w2 = rWidth op w1 w2 := by
  unfold opWidth rWidth
  rw [isCompOp_eq]

theorem toInt_eq (s : Bool) {w : Nat} (v : BitVec w) : toInt s w v.toNat = if s then v.toInt else (v.toNat : Int) := by
  cases s
  · exact toInt_false _ _
  · simp only [if_true, BitVec.toInt, toInt, true_and]
    split <;> split <;> first | rfl | omega

theorem operate_arith {op : VOp} (h : op.isComp = false) (s : Bool) {p : Nat} (a b : BitVec p) :
    operate (vBinOp op) s p a.toNat b.toNat = (varith op a b).toNat := by
  cases op <;> first | (simp [VOp.isComp] at h; done) | skip
  case sub =>
    simp only [vBinOp, operate, varith, BitVec.toNat_sub]
    have ha := a.isLt
    have hb := b.isLt
    have e : ((a.toNat : Int) - b.toNat) % 2 ^ p = ((2 ^ p - b.toNat + a.toNat : Nat) : Int) % 2 ^ p := by
      rw [show ((2 ^ p - b.toNat + a.toNat : Nat) : Int) = (a.toNat : Int) - b.toNat + 2 ^ p by rw [Int.natCast_add, Int.natCast_sub (Nat.le_of_lt hb)]; push_cast; omega]
      rw [Int.add_emod_right]
    rw [e]
    have : (((2 ^ p - b.toNat + a.toNat : Nat) : Int) % 2 ^ p) = (((2 ^ p - b.toNat + a.toNat) % 2 ^ p : Nat) : Int) := by push_cast; rfl
    rw [this, Int.toNat_natCast]
  all_goals simp [vBinOp, operate, varith]

theorem operate_comp {op : VOp} (h : op.isComp = true) (s : Bool) {p : Nat} (a b : BitVec p) :
    operate (vBinOp op) s p a.toNat b.toNat = (vcomp op s a b).toNat := by
  cases op <;> first | (simp [VOp.isComp] at h; done) | skip
  all_goals simp only [vBinOp, operate, vcomp, toInt_eq, BitVec.sle_eq_decide, BitVec.slt_eq_decide, BitVec.ule_eq_decide, BitVec.ult_eq_decide]
  case eq =>
    by_cases e : a = b
    · simp [e]
    · have : a.toNat ≠ b.toNat := fun h => e (BitVec.eq_of_toNat_eq h)
      rw [if_neg this, beq_eq_false_iff_ne.mpr e]; rfl
  case ne =>
    by_cases e : a = b
    · simp [e]
    · have : a.toNat ≠ b.toNat := fun h => e (BitVec.eq_of_toNat_eq h)
      rw [if_pos this, bne_iff_ne.mpr e]; rfl
  all_goals
    cases s
    · simp only [Bool.false_eq_true, if_false]
      split
      · rw [decide_eq_true (by omega)]; rfl
      · rw [decide_eq_false (by omega)]; rfl
    · simp only [if_true]
      split
      · rw [decide_eq_true (by omega)]; rfl
      · rw [decide_eq_false (by omega)]; rfl

/-- The operation on the prepared operands. -/
theorem assigned_op {D : Scope} {σ : Store} (op : VOp) {s1 s2 : Bool} (s3 : Bool) {w1 w2 : Nat}
    (hp1 : D "arg1_prepared" = some (.vec s1 (max w1 w2))) (hp2 : D "arg2_prepared" = some (.vec s2 (max w1 w2))) {a : BitVec w1} {b : BitVec w2}
    (ha : σ.vec "arg1_prepared" = (prepared op s3 w1 w2 a).toNat) (hb : σ.vec "arg2_prepared" = (prepared op s3 w1 w2 b).toNat) :
    assigned D σ (rWidth op w1 w2) (opExpr op) = some (opRhs op s1 s2 s3 a b).toNat := by
  have z1 : size D (.id "arg1_prepared") = some (max w1 w2) := by simp only [size, hp1]
  have z2 : size D (.id "arg2_prepared") = some (max w1 w2) := by simp only [size, hp2]
  have g1 : signed D (.id "arg1_prepared") = s1 := by simp only [signed, hp1]
  have g2 : signed D (.id "arg2_prepared") = s2 := by simp only [signed, hp2]
  unfold assigned opExpr opRhs
  rw [size, z1, z2]
  simp only [isComp_eq, Nat.max_self]
  cases hc : op.isComp
  · have hw : rWidth op w1 w2 = max w1 w2 := by simp [rWidth, hc]
    simp only [Bool.false_eq_true, if_false, hw, Nat.max_self]
    rw [eval, if_neg (by simp [isComp_eq, hc]), eval_id hp1 ha, eval_id hp2 hb]
    simp only [Option.map_some]
    rw [operate_arith hc, Nat.mod_eq_of_lt (BitVec.isLt _), BitVec.toNat_setWidth, hw, Nat.mod_eq_of_lt (BitVec.isLt _)]
  · have hw : rWidth op w1 w2 = 1 := by simp [rWidth, hc]
    simp only [if_true, hw, Nat.max_self]
    rw [eval, if_pos (by simp [isComp_eq, hc]), z1, z2]
    simp only [Nat.max_self, eval_id hp1 ha, eval_id hp2 hb, g1, g2, Option.map_some]
    rw [operate_comp hc, BitVec.toNat_setWidth, hw, BitVec.toNat_ofBool, extend_same _ (by cases vcomp op _ _ _ <;> decide)]

/-- The prepared operands. -/
theorem prepared_run {M : Mod} {ρ : Nat → Store} (h : Run M ρ) (op : VOp) {s s' s3 : Bool} {w w1 w2 : Nat} (h0 : 0 < w) (h' : w ≤ 2 ^ 31) {x y : String}
    (hx : M.scope x = some (.vec s w)) (hy : M.scope y = some (.vec s' (max w1 w2)))
    (hm : .assign y (extended (opWidth op w1 w2 - w) (filler s3 x (w - 1)) (.id x)) ∈ M.items) {t : Nat} {a : BitVec w} (ha : (ρ t).vec x = a.toNat) :
    (ρ t).vec y = (prepared op s3 w1 w2 a).toNat := by
  have hsz : size M.scope (.id x) = some w := by simp only [size, hx]
  have := run_assign h (t := t) hm hy (assigned_extended (size_filler hx h0 h') (unsized_filler _ _ _) (eval_filler hx h0 h' ha _) hsz rfl (eval_id hx ha))
  rw [this, prepared, opWidth_rWidth]

theorem rWidth_pos (op : VOp) {w1 w2 : Nat} (h : 0 < w1) : 0 < rWidth op w1 w2 := by rw [← opWidth_rWidth]; exact opWidth_pos op h

theorem rWidth_le (op : VOp) {w1 w2 : Nat} (h1 : w1 ≤ 2 ^ 31) (h2 : w2 ≤ 2 ^ 31) : rWidth op w1 w2 ≤ 2 ^ 31 := by
  unfold rWidth
  split
  · decide
  · exact Nat.max_le.mpr ⟨h1, h2⟩

/-- A binary operation without registers and with an unsigned result. -/
theorem combBinary_run {x : String} {op : VOp} {s1 s2 : Bool} {w1 w2 w3 : Nat} (h1 : 0 < w1) (h2 : 0 < w2) (h3 : 0 < w3) (h1' : w1 ≤ 2 ^ 31)
    (h2' : w2 ≤ 2 ^ 31) {ρ : Nat → Store} (h : Run (combBinaryMod x op s1 s2 false (widthsOf op w1 w2 w3)) ρ) {a : Nat → BitVec w1} {b : Nat → BitVec w2}
    (ha : ∀ t, (ρ t).vec "arg1" = (a t).toNat) (hb : ∀ t, (ρ t).vec "arg2" = (b t).toNat) (t : Nat) :
    some ((ρ t).vec "res1") = (combBinary op s1 s2 false w3 (a t) (b t)).map BitVec.toNat := by
  have e1 : w1 - 1 + 1 = w1 := by omega
  have e2 : w2 - 1 + 1 = w2 := by omega
  have e3 : w3 - 1 + 1 = w3 := by omega
  have hrp := rWidth_pos op (w2 := w2) h1
  have ec : max w3 (opWidth op w1 w2) - 1 + 1 = max w3 (rWidth op w1 w2) := by rw [opWidth_rWidth]; omega
  have er : opWidth op w1 w2 - 1 + 1 = rWidth op w1 w2 := by rw [opWidth_rWidth]; omega
  have ep : max w1 w2 - 1 + 1 = max w1 w2 := by omega
  generalize hM : combBinaryMod x op s1 s2 false (widthsOf op w1 w2 w3) = M at h
  have k1 : M.scope "arg1" = some (.vec s1 (w1 - 1 + 1)) := by subst hM; kernel_rfl
  have k2 : M.scope "arg2" = some (.vec s2 (w2 - 1 + 1)) := by subst hM; kernel_rfl
  have k3 : M.scope "res1" = some (.vec false (w3 - 1 + 1)) := by subst hM; kernel_rfl
  have kc : M.scope "cat" = some (.vec false (max w3 (opWidth op w1 w2) - 1 + 1)) := by subst hM; kernel_rfl
  have kr : M.scope "r" = some (.vec false (opWidth op w1 w2 - 1 + 1)) := by subst hM; kernel_rfl
  have kp1 : M.scope "arg1_prepared" = some (.vec s1 (max w1 w2 - 1 + 1)) := by subst hM; kernel_rfl
  have kp2 : M.scope "arg2_prepared" = some (.vec s2 (max w1 w2 - 1 + 1)) := by subst hM; kernel_rfl
  rw [e1] at k1; rw [e2] at k2; rw [e3] at k3; rw [ec] at kc; rw [er] at kr; rw [ep] at kp1 kp2
  have p1 := prepared_run h op (s3 := false) h1 h1' k1 kp1 (t := t) (by subst hM; simp [combBinaryMod, prepares, widthsOf]) (ha t)
  have p2 := prepared_run h op (s3 := false) h2 h2' k2 kp2 (t := t) (by subst hM; simp [combBinaryMod, prepares, widthsOf]) (hb t)
  have hr := run_assign h (x := "r") (e := opExpr op) (t := t) (by subst hM; simp [combBinaryMod]) kr (assigned_op op false kp1 kp2 p1 p2)
  have hsz : size M.scope (.id "r") = some (rWidth op w1 w2) := by simp only [size, kr]
  have hc := run_assign h (x := "cat") (e := extended (w3 - opWidth op w1 w2) (.lit 1 0) (.id "r")) (t := t)
    (by subst hM; simp [combBinaryMod, widthsOf]) kc (assigned_extended (by simp [size]) rfl (eval_lit0 _ _ _) hsz rfl (eval_id kr hr))
  have hres := run_assign h (x := "res1") (e := .part "cat" (w3 - 1) 0) (t := t) (by subst hM; simp [combBinaryMod, widthsOf]) k3
    (assigned_part kc h3 (Nat.le_max_left _ _) hc)
  rw [hres, combBinary, if_neg (by simp), Option.map_some, resOf, opWidth_rWidth]

/-- A binary operation with registers. -/
theorem binary_run {x : String} {op : VOp} {s1 s2 s3 : Bool} {w1 w2 w3 L : Nat} (h1 : 0 < w1) (h2 : 0 < w2) (h3 : 0 < w3) (h1' : w1 ≤ 2 ^ 31)
    (h2' : w2 ≤ 2 ^ 31) (hL' : L ≤ 2 ^ 31) {ρ : Nat → Store} (h : Run (binaryMod x op s1 s2 s3 (widthsOf op w1 w2 w3) (L - 1)) ρ) {a : Nat → BitVec w1}
    {b : Nat → BitVec w2} (ha : ∀ t, (ρ t).vec "arg1" = (a t).toNat) (hb : ∀ t, (ρ t).vec "arg2" = (b t).toNat) (t : Nat) :
    (ρ t).vec "res1" = (binaryOut op s1 s2 s3 w3 L (fun i => BitVec.ofNat _ ((ρ 0).mem "r" i)) a b t).toNat := by
  have e1 : w1 - 1 + 1 = w1 := by omega
  have e2 : w2 - 1 + 1 = w2 := by omega
  have e3 : w3 - 1 + 1 = w3 := by omega
  have hrp := rWidth_pos op (w2 := w2) h1
  have ec : max w3 (opWidth op w1 w2) - 1 + 1 = max w3 (rWidth op w1 w2) := by rw [opWidth_rWidth]; omega
  have er : opWidth op w1 w2 - 1 + 1 = rWidth op w1 w2 := by rw [opWidth_rWidth]; omega
  have ep : max w1 w2 - 1 + 1 = max w1 w2 := by omega
  generalize hM : binaryMod x op s1 s2 s3 (widthsOf op w1 w2 w3) (L - 1) = M at h
  have k1 : M.scope "arg1" = some (.vec s1 (w1 - 1 + 1)) := by subst hM; kernel_rfl
  have k2 : M.scope "arg2" = some (.vec s2 (w2 - 1 + 1)) := by subst hM; kernel_rfl
  have k3 : M.scope "res1" = some (.vec s3 (w3 - 1 + 1)) := by subst hM; kernel_rfl
  have kc : M.scope "cat" = some (.vec false (max w3 (opWidth op w1 w2) - 1 + 1)) := by subst hM; kernel_rfl
  have kr : M.scope "r" = some (.mem false (opWidth op w1 w2 - 1 + 1) (L - 1 + 1)) := by subst hM; kernel_rfl
  have ki : M.scope "i" = some (.vec true 32) := by subst hM; kernel_rfl
  have kp1 : M.scope "arg1_prepared" = some (.vec s1 (max w1 w2 - 1 + 1)) := by subst hM; kernel_rfl
  have kp2 : M.scope "arg2_prepared" = some (.vec s2 (max w1 w2 - 1 + 1)) := by subst hM; kernel_rfl
  rw [e1] at k1; rw [e2] at k2; rw [e3] at k3; rw [ec] at kc; rw [er] at kr; rw [ep] at kp1 kp2
  have p1 := fun t => prepared_run h op (s3 := s3) h1 h1' k1 kp1 (t := t) (by subst hM; simp [binaryMod, prepares, widthsOf]) (ha t)
  have p2 := fun t => prepared_run h op (s3 := s3) h2 h2' k2 kp2 (t := t) (by subst hM; simp [binaryMod, prepares, widthsOf]) (hb t)
  have hst := run_shift h ki kr (by omega) (e := opExpr op) (by subst hM; simp [binaryMod, prepares, Mod.procs])
    (by subst hM; simp [binaryMod, Mod.regs, Item.procedural]) (v := fun t => opRhs op s1 s2 s3 (a t) (b t))
    (fun t => assigned_op op s3 kp1 kp2 (by rw [setI_other _ _ (by decide)]; exact p1 t) (by rw [setI_other _ _ (by decide)]; exact p2 t)) t
  have hsz : size M.scope (.sel "r" (.num (L - 1))) = some (rWidth op w1 w2) := by
    simp only [size, kr, if_pos (show L - 1 < 2 ^ 31 by omega)]
  have hrl := rWidth_le op h1' h2'
  have hc := run_assign h (x := "cat")
    (e := extended (w3 - opWidth op w1 w2) (if s3 then .sel2 "r" (.num (L - 1)) (.num (rWidth op w1 w2 - 1)) else .lit 1 0) (.sel "r" (.num (L - 1)))) (t := t)
    (by subst hM; simp [binaryMod, widthsOf, opWidth_rWidth]) kc
    (assigned_extended (b := if s3 then (shiftState (L - 1) (fun i => BitVec.ofNat _ ((ρ 0).mem "r" i)) (fun t => opRhs op s1 s2 s3 (a t) (b t)) t
        (L - 1)).getLsbD (rWidth op w1 w2 - 1) else false)
      (by cases s3
          · simp [size]
          · simp only [if_true, size, kr, if_pos (show L - 1 < 2 ^ 31 by omega), if_pos (show rWidth op w1 w2 - 1 < 2 ^ 31 by omega)])
      (by cases s3 <;> rfl)
      (by cases s3
          · exact eval_lit0 _ _ _
          · exact eval_lastTop kr (by omega) hrp hrl hst _)
      hsz rfl (eval_last kr (by omega) hst _))
  have hres := run_assign h (x := "res1") (e := .part "cat" (w3 - 1) 0) (t := t) (by subst hM; simp [binaryMod, widthsOf]) k3
    (assigned_part kc h3 (Nat.le_max_left _ _) hc)
  rw [hres, binaryOut, resOf, opWidth_rWidth]

end Verif.Vlog
