import Verif.Vlog.Mods
/-
The modules of the library are legal, and have a run for all inputs and all contents of the registers at first.
-/
namespace Verif.Vlog
open Verif.Hw Verif.Tpl

/-! ### Stores -/

/-- A store from the values of the vectors and of `r`. -/
def mkStore (l : List (String × Nat)) (r : Nat → Nat) : Store := ⟨fun y => (l.lookup y).getD 0, fun x j => if x = "r" then r j else 0⟩

theorem fits_of {m : Mod} {l : List (String × Nat)} {r : Nat → Nat} (h : ∀ p ∈ m.vars, ∀ s w, p.2 = .vec s w → (l.lookup p.1).getD 0 < 2 ^ w) :
    ∀ x s w, m.scope x = some (.vec s w) → (mkStore l r).vec x < 2 ^ w :=
  fun x s w hx => h (x, .vec s w) (mem_of_lookup hx) s w rfl

/-- A run of a module with a shift register, step by step. -/
theorem shift_step {D : Scope} {w n : Nat} (hi : D "i" = some (.vec true 32)) (hr : D "r" = some (.mem false w (n + 1))) (hn : n < 2 ^ 31)
    {l l' : List (String × Nat)} {r0 : Nat → BitVec w} {v : Nat → BitVec w} {t : Nat} {e : Expr} (hl : l.lookup "i" = none) (hl' : l'.lookup "i" = none)
    (hlr : l.lookup "r" = none) (hlr' : l'.lookup "r" = none)
    (he : assigned D (setI (mkStore l fun j => (shiftState n r0 v t j).toNat) 0) w e = some (v t).toNat) :
    ∃ τ, Edge D (shiftStmt n e) (mkStore l fun j => (shiftState n r0 v t j).toNat) τ ∧ ∀ x ∈ ["r", "i"],
      (mkStore l' fun j => (shiftState n r0 v (t + 1) j).toNat).vec x = τ.vec x ∧
      (mkStore l' fun j => (shiftState n r0 v (t + 1) j).toNat).mem x = τ.mem x := by
  have hx := shift_exec hi hr (mkStore l fun j => (shiftState n r0 v t j).toNat) hn (fun j _ => by simp only [mkStore, if_true]; exact BitVec.isLt _) he
  refine ⟨_, ⟨_, _, hx, rfl⟩, ?_⟩
  intro x hxm
  rw [foldl_vec]
  simp only [List.mem_cons, List.not_mem_nil, or_false] at hxm
  rcases hxm with rfl | rfl
  · refine ⟨by rw [setI_other _ _ (by decide)]; simp [mkStore, hlr, hlr'], ?_⟩
    rw [foldl_mem]
    funext j
    simp only [mkStore, if_true, shiftState]
    exact shiftEdge_map BitVec.toNat n _ _ j
  · refine ⟨by rw [setI_i]; simp [mkStore, hl'], ?_⟩
    rw [foldl_mem_other _ _ (by decide)]
    rfl

theorem lt_one : (0 : Nat) < 2 ^ 1 := by decide

/-! ### FIFOs -/

theorem fifo_exists (x : String) {w L : Nat} (hw : 0 < w) (hL' : L ≤ 2 ^ 31) (arg r0 : Nat → BitVec w) : ∃ ρ, Run (fifoMod x (w - 1) (L - 1)) ρ ∧
    (∀ t, (ρ t).vec "arg1" = (arg t).toNat) ∧ ∀ i, (ρ 0).mem "r" i = (r0 i).toNat := by
  have ew : w - 1 + 1 = w := by omega
  generalize hM : fifoMod x (w - 1) (L - 1) = M
  have hr : M.scope "r" = some (.mem false (w - 1 + 1) (L - 1 + 1)) := by subst hM; kernel_rfl
  have hi : M.scope "i" = some (.vec true 32) := by subst hM; kernel_rfl
  have ha1 : M.scope "arg1" = some (.vec false (w - 1 + 1)) := by subst hM; kernel_rfl
  have hres : M.scope "res1" = some (.vec false (w - 1 + 1)) := by subst hM; kernel_rfl
  rw [ew] at hr ha1 hres
  let regs := fun t j => (shiftState (L - 1) r0 arg t j).toNat
  let l := fun t => [("arg1", (arg t).toNat), ("res1", regs t (L - 1))]
  refine ⟨fun t => mkStore (l t) (regs t), ⟨fun t => fits_of ?_, ?_, ?_, ?_⟩, fun t => rfl, fun i => ?_⟩
  · subst hM
    intro p hp s w' hw'
    simp only [fifoMod, Mod.vars, List.map_cons, List.map_nil, Port.var, List.filterMap_cons, List.filterMap_nil, Item.var, List.cons_append,
      List.nil_append, List.mem_cons, List.not_mem_nil, or_false] at hp
    rcases hp with rfl | rfl | rfl | rfl | rfl
    · cases hw'; rw [ew]; exact (arg t).isLt
    · cases hw'; rw [ew]; exact BitVec.isLt _
    · cases hw'; exact lt_one
    · cases hw'
    · cases hw'; exact Nat.two_pow_pos _
  · intro t y s w' d hy i hi
    subst hM
    have hp := mem_of_lookup hy
    simp only [fifoMod, Mod.vars, List.map_cons, List.map_nil, Port.var, List.filterMap_cons, List.filterMap_nil, Item.var, List.cons_append,
      List.nil_append, List.mem_cons, List.not_mem_nil, or_false, Prod.mk.injEq, Var.mem.injEq, reduceCtorEq, and_false, false_or] at hp
    obtain ⟨rfl, -, rfl, -⟩ := hp
    rw [ew]; exact BitVec.isLt _
  · intro y e hm t
    have hm : y = "res1" ∧ e = .sel "r" (.num (L - 1)) := by subst hM; simpa [fifoMod] using hm
    obtain ⟨rfl, rfl⟩ := hm
    refine ⟨_, _, hres, ?_⟩
    have hsz : size M.scope (.sel "r" (.num (L - 1))) = some w := by
      simp only [size, hr, if_pos (show L - 1 < 2 ^ 31 by omega)]
    simp only [assigned, hsz, Nat.max_self]
    rw [eval_last hr (by omega) (v := shiftState (L - 1) r0 arg t (L - 1)) rfl, Option.map_some, Nat.mod_eq_of_lt (BitVec.isLt _)]
    rfl
  · intro s hs t
    have hs : s = shiftStmt (L - 1) (.id "arg1") := by subst hM; simpa [fifoMod, Mod.procs] using hs
    subst hs
    have : M.regs = ["r", "i"] := by subst hM; rfl
    rw [this]
    exact shift_step hi hr (by omega) rfl rfl rfl rfl (assigned_id ha1 rfl)
  · rfl

/-! ### Casts -/

theorem combCast_exists (x : String) {w1 w2 : Nat} (s : Bool) (h1 : 0 < w1) (h2 : 0 < w2) (h1' : w1 ≤ 2 ^ 31) (arg : Nat → BitVec w1) (r0 : Nat → BitVec w1) :
    ∃ ρ, Run (combCastMod x (w1 - 1) (w2 - 1) (w2 - w1) (max w2 w1 - 1) s) ρ ∧ (∀ t, (ρ t).vec "arg1" = (arg t).toNat) ∧
      ∀ i, (ρ 0).mem "r" i = (r0 i).toNat := by
  have ew : w1 - 1 + 1 = w1 := by omega
  have ew2 : w2 - 1 + 1 = w2 := by omega
  have ec : max w2 w1 - 1 + 1 = max w2 w1 := by omega
  generalize hM : combCastMod x (w1 - 1) (w2 - 1) (w2 - w1) (max w2 w1 - 1) s = M
  have ha1 : M.scope "arg1" = some (.vec false (w1 - 1 + 1)) := by subst hM; kernel_rfl
  have hres : M.scope "res1" = some (.vec false (w2 - 1 + 1)) := by subst hM; kernel_rfl
  have hcat : M.scope "cat" = some (.vec false (max w2 w1 - 1 + 1)) := by subst hM; kernel_rfl
  rw [ew] at ha1; rw [ew2] at hres; rw [ec] at hcat
  let cat := fun t => castCat w2 (castRepeatVal s (arg t)) (arg t)
  let l := fun t => [("arg1", (arg t).toNat), ("cat", (cat t).toNat), ("res1", ((cat t).extractLsb' 0 w2).toNat)]
  refine ⟨fun t => mkStore (l t) fun i => (r0 i).toNat, ⟨fun t => fits_of ?_, ?_, ?_, ?_⟩, fun t => rfl, fun i => ?_⟩
  · subst hM
    intro p hp s w' hw'
    simp only [combCastMod, Mod.vars, List.map_cons, List.map_nil, Port.var, List.filterMap_cons, List.filterMap_nil, Item.var, List.cons_append,
      List.nil_append, List.mem_cons, List.not_mem_nil, or_false] at hp
    rcases hp with rfl | rfl | rfl | rfl
    · cases hw'; rw [ew]; exact (arg t).isLt
    · cases hw'; rw [ew2]; exact BitVec.isLt (BitVec.extractLsb' 0 w2 (cat t))
    · cases hw'; exact lt_one
    · cases hw'; rw [ec]; exact BitVec.isLt (cat t)
  · intro t y s w' d hy i hi
    subst hM
    have hp := mem_of_lookup hy
    simp [combCastMod, Mod.vars, Port.var, Item.var] at hp
  · intro y e hm t
    have hm : (y = "cat" ∧ e = extended (w2 - w1) (filler s "arg1" (w1 - 1)) (.id "arg1")) ∨ (y = "res1" ∧ e = .part "cat" (w2 - 1) 0) := by
      subst hM; simpa [combCastMod] using hm
    rcases hm with ⟨rfl, rfl⟩ | ⟨rfl, rfl⟩
    · refine ⟨_, _, hcat, ?_⟩
      have hsz : size M.scope (.id "arg1") = some w1 := by simp only [size, ha1]
      exact assigned_extended (size_filler ha1 h1 h1') (unsized_filler _ _ _) (eval_filler ha1 h1 h1' rfl _) hsz rfl (eval_id ha1 rfl)
    · exact ⟨_, _, hres, assigned_part hcat h2 (Nat.le_max_left _ _) rfl⟩
  · intro s hs t
    exfalso
    subst hM
    simp [combCastMod, Mod.procs] at hs
  · rfl

theorem cast_exists (x : String) {w1 w2 L : Nat} (s : Bool) (h1 : 0 < w1) (h2 : 0 < w2) (h1' : w1 ≤ 2 ^ 31) (hL' : L ≤ 2 ^ 31) (arg r0 : Nat → BitVec w1) :
    ∃ ρ, Run (castMod x (w1 - 1) (w2 - 1) (w2 - w1) (max w2 w1 - 1) (L - 1) s) ρ ∧ (∀ t, (ρ t).vec "arg1" = (arg t).toNat) ∧
      ∀ i, (ρ 0).mem "r" i = (r0 i).toNat := by
  have ew : w1 - 1 + 1 = w1 := by omega
  have ew2 : w2 - 1 + 1 = w2 := by omega
  have ec : max w2 w1 - 1 + 1 = max w2 w1 := by omega
  generalize hM : castMod x (w1 - 1) (w2 - 1) (w2 - w1) (max w2 w1 - 1) (L - 1) s = M
  have ha1 : M.scope "arg1" = some (.vec false (w1 - 1 + 1)) := by subst hM; kernel_rfl
  have hres : M.scope "res1" = some (.vec false (w2 - 1 + 1)) := by subst hM; kernel_rfl
  have hcat : M.scope "cat" = some (.vec false (max w2 w1 - 1 + 1)) := by subst hM; kernel_rfl
  have hi : M.scope "i" = some (.vec true 32) := by subst hM; kernel_rfl
  have hr : M.scope "r" = some (.mem false (w1 - 1 + 1) (L - 1 + 1)) := by subst hM; kernel_rfl
  rw [ew] at ha1 hr; rw [ew2] at hres; rw [ec] at hcat
  let regs := fun t j => shiftState (L - 1) r0 arg t j
  let cat := fun t => castCat w2 (castRepeatVal s (arg t)) (regs t (L - 1))
  let l := fun t => [("arg1", (arg t).toNat), ("cat", (cat t).toNat), ("res1", ((cat t).extractLsb' 0 w2).toNat)]
  refine ⟨fun t => mkStore (l t) fun j => (regs t j).toNat, ⟨fun t => fits_of ?_, ?_, ?_, ?_⟩, fun t => rfl, fun i => ?_⟩
  · subst hM
    intro p hp s w' hw'
    simp only [castMod, Mod.vars, List.map_cons, List.map_nil, Port.var, List.filterMap_cons, List.filterMap_nil, Item.var, List.cons_append,
      List.nil_append, List.mem_cons, List.not_mem_nil, or_false] at hp
    rcases hp with rfl | rfl | rfl | rfl | rfl | rfl
    · cases hw'; rw [ew]; exact (arg t).isLt
    · cases hw'; rw [ew2]; exact BitVec.isLt (BitVec.extractLsb' 0 w2 (cat t))
    · cases hw'; exact lt_one
    · cases hw'
    · cases hw'; rw [ec]; exact BitVec.isLt (cat t)
    · cases hw'; exact Nat.two_pow_pos _
  · intro t y s w' d hy i hi
    subst hM
    have hp := mem_of_lookup hy
    simp only [castMod, Mod.vars, List.map_cons, List.map_nil, Port.var, List.filterMap_cons, List.filterMap_nil, Item.var, List.cons_append,
      List.nil_append, List.mem_cons, List.not_mem_nil, or_false, Prod.mk.injEq, Var.mem.injEq, reduceCtorEq, and_false, false_or] at hp
    obtain ⟨rfl, -, rfl, -⟩ := hp
    rw [ew]; exact BitVec.isLt _
  · intro y e hm t
    have hm : (y = "cat" ∧ e = extended (w2 - w1) (filler s "arg1" (w1 - 1)) (.sel "r" (.num (L - 1)))) ∨ (y = "res1" ∧ e = .part "cat" (w2 - 1) 0) := by
      subst hM; simpa [castMod] using hm
    rcases hm with ⟨rfl, rfl⟩ | ⟨rfl, rfl⟩
    · refine ⟨_, _, hcat, ?_⟩
      have hsz : size M.scope (.sel "r" (.num (L - 1))) = some w1 := by
        simp only [size, hr, if_pos (show L - 1 < 2 ^ 31 by omega)]
      exact assigned_extended (size_filler ha1 h1 h1') (unsized_filler _ _ _) (eval_filler ha1 h1 h1' rfl _) hsz rfl (eval_last hr (by omega) rfl _)
    · exact ⟨_, _, hres, assigned_part hcat h2 (Nat.le_max_left _ _) rfl⟩
  · intro s hs t
    have hs : s = shiftStmt (L - 1) (.id "arg1") := by subst hM; simpa [castMod, Mod.procs] using hs
    subst hs
    have : M.regs = ["r", "i"] := by subst hM; rfl
    rw [this]
    exact shift_step hi hr (by omega) rfl rfl rfl rfl (assigned_id ha1 rfl)
  · rfl

/-! ### Binary operations -/

theorem combBinary_exists (x : String) (op : VOp) (s1 s2 : Bool) {w1 w2 w3 : Nat} (h1 : 0 < w1) (h2 : 0 < w2) (h3 : 0 < w3) (h1' : w1 ≤ 2 ^ 31)
    (h2' : w2 ≤ 2 ^ 31) (a : Nat → BitVec w1) (b : Nat → BitVec w2) (r0 : Nat → BitVec (rWidth op w1 w2)) :
    ∃ ρ, Run (combBinaryMod x op s1 s2 false (widthsOf op w1 w2 w3)) ρ ∧
      (∀ t, (ρ t).vec "arg1" = (a t).toNat) ∧ (∀ t, (ρ t).vec "arg2" = (b t).toNat) ∧ ∀ i, (ρ 0).mem "r" i = (r0 i).toNat := by
  have e1 : w1 - 1 + 1 = w1 := by omega
  have e2 : w2 - 1 + 1 = w2 := by omega
  have e3 : w3 - 1 + 1 = w3 := by omega
  have hrp := rWidth_pos op (w2 := w2) h1
  have ec : max w3 (opWidth op w1 w2) - 1 + 1 = max w3 (rWidth op w1 w2) := by rw [opWidth_rWidth]; omega
  have er : opWidth op w1 w2 - 1 + 1 = rWidth op w1 w2 := by rw [opWidth_rWidth]; omega
  have ep : max w1 w2 - 1 + 1 = max w1 w2 := by omega
  generalize hM : combBinaryMod x op s1 s2 false (widthsOf op w1 w2 w3) = M
  have k1 : M.scope "arg1" = some (.vec s1 (w1 - 1 + 1)) := by subst hM; kernel_rfl
  have k2 : M.scope "arg2" = some (.vec s2 (w2 - 1 + 1)) := by subst hM; kernel_rfl
  have k3 : M.scope "res1" = some (.vec false (w3 - 1 + 1)) := by subst hM; kernel_rfl
  have kc : M.scope "cat" = some (.vec false (max w3 (opWidth op w1 w2) - 1 + 1)) := by subst hM; kernel_rfl
  have kr : M.scope "r" = some (.vec false (opWidth op w1 w2 - 1 + 1)) := by subst hM; kernel_rfl
  have kp1 : M.scope "arg1_prepared" = some (.vec s1 (max w1 w2 - 1 + 1)) := by subst hM; kernel_rfl
  have kp2 : M.scope "arg2_prepared" = some (.vec s2 (max w1 w2 - 1 + 1)) := by subst hM; kernel_rfl
  rw [e1] at k1; rw [e2] at k2; rw [e3] at k3; rw [ec] at kc; rw [er] at kr; rw [ep] at kp1 kp2
  let p1 := fun t => prepared op false w1 w2 (a t)
  let p2 := fun t => prepared op false w1 w2 (b t)
  let r := fun t => opRhs op s1 s2 false (a t) (b t)
  let cat := fun t => (repCat (w3 - opWidth op w1 w2) false (r t)).setWidth (max w3 (rWidth op w1 w2))
  let l := fun t => [("arg1", (a t).toNat), ("arg2", (b t).toNat), ("arg1_prepared", (p1 t).toNat), ("arg2_prepared", (p2 t).toNat), ("r", (r t).toNat),
    ("cat", (cat t).toNat), ("res1", ((cat t).extractLsb' 0 w3).toNat)]
  refine ⟨fun t => mkStore (l t) fun j => (r0 j).toNat, ⟨fun t => fits_of ?_, ?_, ?_, ?_⟩, fun t => rfl, fun t => rfl, fun i => rfl⟩
  · subst hM
    intro p hp s w' hw'
    simp only [combBinaryMod, binPorts, prepares, widthsOf, Mod.vars, List.map_cons, List.map_nil, Port.var, List.filterMap_cons, List.filterMap_nil, Item.var,
      List.cons_append, List.nil_append, List.mem_cons, List.not_mem_nil, or_false] at hp
    rcases hp with rfl | rfl | rfl | rfl | rfl | rfl | rfl | rfl
    · cases hw'; rw [e1]; exact (a t).isLt
    · cases hw'; rw [e2]; exact (b t).isLt
    · cases hw'; rw [e3]; exact BitVec.isLt (BitVec.extractLsb' 0 w3 (cat t))
    · cases hw'; exact lt_one
    · cases hw'; rw [er]; exact BitVec.isLt (r t)
    · cases hw'; rw [ec]; exact BitVec.isLt (cat t)
    · cases hw'; rw [ep]; exact BitVec.isLt (p1 t)
    · cases hw'; rw [ep]; exact BitVec.isLt (p2 t)
  · intro t y s w' d hy i hi
    subst hM
    have hp := mem_of_lookup hy
    simp [combBinaryMod, binPorts, prepares, Mod.vars, Port.var, Item.var] at hp
  · intro y e hm t
    have hm : (y = "arg1_prepared" ∧ e = extended (opWidth op w1 w2 - w1) (filler false "arg1" (w1 - 1)) (.id "arg1")) ∨
        (y = "arg2_prepared" ∧ e = extended (opWidth op w1 w2 - w2) (filler false "arg2" (w2 - 1)) (.id "arg2")) ∨ (y = "r" ∧ e = opExpr op) ∨
        (y = "cat" ∧ e = extended (w3 - opWidth op w1 w2) (.lit 1 0) (.id "r")) ∨ (y = "res1" ∧ e = .part "cat" (w3 - 1) 0) := by
      subst hM; simpa [combBinaryMod, prepares, widthsOf] using hm
    rcases hm with ⟨rfl, rfl⟩ | ⟨rfl, rfl⟩ | ⟨rfl, rfl⟩ | ⟨rfl, rfl⟩ | ⟨rfl, rfl⟩
    · refine ⟨_, _, kp1, ?_⟩
      have hsz : size M.scope (.id "arg1") = some w1 := by simp only [size, k1]
      rw [assigned_extended (size_filler k1 h1 h1') (unsized_filler _ _ _) (eval_filler k1 h1 h1' (v := a t) rfl _) hsz rfl (eval_id k1 rfl), opWidth_rWidth]
      rfl
    · refine ⟨_, _, kp2, ?_⟩
      have hsz : size M.scope (.id "arg2") = some w2 := by simp only [size, k2]
      rw [assigned_extended (size_filler k2 h2 h2') (unsized_filler _ _ _) (eval_filler k2 h2 h2' (v := b t) rfl _) hsz rfl (eval_id k2 rfl), opWidth_rWidth]
      rfl
    · exact ⟨_, _, kr, assigned_op op false kp1 kp2 rfl rfl⟩
    · refine ⟨_, _, kc, ?_⟩
      have hsz : size M.scope (.id "r") = some (rWidth op w1 w2) := by simp only [size, kr]
      exact assigned_extended (by simp [size]) rfl (eval_lit0 _ _ _) hsz rfl (eval_id kr rfl)
    · exact ⟨_, _, k3, assigned_part kc h3 (Nat.le_max_left _ _) rfl⟩
  · intro s hs t
    exfalso
    subst hM
    simp [combBinaryMod, prepares, Mod.procs] at hs

theorem binary_exists (x : String) (op : VOp) (s1 s2 s3 : Bool) {w1 w2 w3 L : Nat} (h1 : 0 < w1) (h2 : 0 < w2) (h3 : 0 < w3) (h1' : w1 ≤ 2 ^ 31)
    (h2' : w2 ≤ 2 ^ 31) (hL' : L ≤ 2 ^ 31) (a : Nat → BitVec w1) (b : Nat → BitVec w2) (r0 : Nat → BitVec (rWidth op w1 w2)) :
    ∃ ρ, Run (binaryMod x op s1 s2 s3 (widthsOf op w1 w2 w3) (L - 1)) ρ ∧
      (∀ t, (ρ t).vec "arg1" = (a t).toNat) ∧ (∀ t, (ρ t).vec "arg2" = (b t).toNat) ∧ ∀ i, (ρ 0).mem "r" i = (r0 i).toNat := by
  have e1 : w1 - 1 + 1 = w1 := by omega
  have e2 : w2 - 1 + 1 = w2 := by omega
  have e3 : w3 - 1 + 1 = w3 := by omega
  have hrp := rWidth_pos op (w2 := w2) h1
  have hrl := rWidth_le op h1' h2'
  have ec : max w3 (opWidth op w1 w2) - 1 + 1 = max w3 (rWidth op w1 w2) := by rw [opWidth_rWidth]; omega
  have er : opWidth op w1 w2 - 1 + 1 = rWidth op w1 w2 := by rw [opWidth_rWidth]; omega
  have ep : max w1 w2 - 1 + 1 = max w1 w2 := by omega
  generalize hM : binaryMod x op s1 s2 s3 (widthsOf op w1 w2 w3) (L - 1) = M
  have k1 : M.scope "arg1" = some (.vec s1 (w1 - 1 + 1)) := by subst hM; kernel_rfl
  have k2 : M.scope "arg2" = some (.vec s2 (w2 - 1 + 1)) := by subst hM; kernel_rfl
  have k3 : M.scope "res1" = some (.vec s3 (w3 - 1 + 1)) := by subst hM; kernel_rfl
  have kc : M.scope "cat" = some (.vec false (max w3 (opWidth op w1 w2) - 1 + 1)) := by subst hM; kernel_rfl
  have kr : M.scope "r" = some (.mem false (opWidth op w1 w2 - 1 + 1) (L - 1 + 1)) := by subst hM; kernel_rfl
  have ki : M.scope "i" = some (.vec true 32) := by subst hM; kernel_rfl
  have kp1 : M.scope "arg1_prepared" = some (.vec s1 (max w1 w2 - 1 + 1)) := by subst hM; kernel_rfl
  have kp2 : M.scope "arg2_prepared" = some (.vec s2 (max w1 w2 - 1 + 1)) := by subst hM; kernel_rfl
  rw [e1] at k1; rw [e2] at k2; rw [e3] at k3; rw [ec] at kc; rw [er] at kr; rw [ep] at kp1 kp2
  let p1 := fun t => prepared op s3 w1 w2 (a t)
  let p2 := fun t => prepared op s3 w1 w2 (b t)
  let v := fun t => opRhs op s1 s2 s3 (a t) (b t)
  let regs := fun t j => shiftState (L - 1) r0 v t j
  let cat := fun t => (repCat (w3 - opWidth op w1 w2) (if s3 then (regs t (L - 1)).getLsbD (rWidth op w1 w2 - 1) else false)
    (regs t (L - 1))).setWidth (max w3 (rWidth op w1 w2))
  let l := fun t => [("arg1", (a t).toNat), ("arg2", (b t).toNat), ("arg1_prepared", (p1 t).toNat), ("arg2_prepared", (p2 t).toNat),
    ("cat", (cat t).toNat), ("res1", ((cat t).extractLsb' 0 w3).toNat)]
  refine ⟨fun t => mkStore (l t) fun j => (regs t j).toNat, ⟨fun t => fits_of ?_, ?_, ?_, ?_⟩, fun t => rfl, fun t => rfl, fun i => rfl⟩
  · subst hM
    intro p hp s w' hw'
    simp only [binaryMod, binPorts, prepares, widthsOf, Mod.vars, List.map_cons, List.map_nil, Port.var, List.filterMap_cons, List.filterMap_nil, Item.var,
      List.cons_append, List.nil_append, List.mem_cons, List.not_mem_nil, or_false] at hp
    rcases hp with rfl | rfl | rfl | rfl | rfl | rfl | rfl | rfl | rfl
    · cases hw'; rw [e1]; exact (a t).isLt
    · cases hw'; rw [e2]; exact (b t).isLt
    · cases hw'; rw [e3]; exact BitVec.isLt (BitVec.extractLsb' 0 w3 (cat t))
    · cases hw'; exact lt_one
    · cases hw'
    · cases hw'; rw [ec]; exact BitVec.isLt (cat t)
    · cases hw'; rw [ep]; exact BitVec.isLt (p1 t)
    · cases hw'; rw [ep]; exact BitVec.isLt (p2 t)
    · cases hw'; exact Nat.two_pow_pos _
  · intro t y s w' d hy i hi
    subst hM
    have hp := mem_of_lookup hy
    simp only [binaryMod, binPorts, prepares, widthsOf, Mod.vars, List.map_cons, List.map_nil, Port.var, List.filterMap_cons, List.filterMap_nil, Item.var,
      List.cons_append, List.nil_append, List.mem_cons, List.not_mem_nil, or_false, Prod.mk.injEq, Var.mem.injEq, reduceCtorEq, and_false, false_or] at hp
    obtain ⟨rfl, -, rfl, -⟩ := hp
    rw [er]; exact BitVec.isLt _
  · intro y e hm t
    have hm : (y = "arg1_prepared" ∧ e = extended (opWidth op w1 w2 - w1) (filler s3 "arg1" (w1 - 1)) (.id "arg1")) ∨
        (y = "arg2_prepared" ∧ e = extended (opWidth op w1 w2 - w2) (filler s3 "arg2" (w2 - 1)) (.id "arg2")) ∨
        (y = "cat" ∧ e = extended (w3 - opWidth op w1 w2) (if s3 then .sel2 "r" (.num (L - 1)) (.num (rWidth op w1 w2 - 1)) else .lit 1 0)
          (.sel "r" (.num (L - 1)))) ∨ (y = "res1" ∧ e = .part "cat" (w3 - 1) 0) := by
      subst hM; simpa [binaryMod, prepares, widthsOf, opWidth_rWidth] using hm
    rcases hm with ⟨rfl, rfl⟩ | ⟨rfl, rfl⟩ | ⟨rfl, rfl⟩ | ⟨rfl, rfl⟩
    · refine ⟨_, _, kp1, ?_⟩
      have hsz : size M.scope (.id "arg1") = some w1 := by simp only [size, k1]
      rw [assigned_extended (size_filler k1 h1 h1') (unsized_filler _ _ _) (eval_filler k1 h1 h1' (v := a t) rfl _) hsz rfl (eval_id k1 rfl), opWidth_rWidth]
      rfl
    · refine ⟨_, _, kp2, ?_⟩
      have hsz : size M.scope (.id "arg2") = some w2 := by simp only [size, k2]
      rw [assigned_extended (size_filler k2 h2 h2') (unsized_filler _ _ _) (eval_filler k2 h2 h2' (v := b t) rfl _) hsz rfl (eval_id k2 rfl), opWidth_rWidth]
      rfl
    · refine ⟨_, _, kc, ?_⟩
      have hsz : size M.scope (.sel "r" (.num (L - 1))) = some (rWidth op w1 w2) := by
        simp only [size, kr, if_pos (show L - 1 < 2 ^ 31 by omega)]
      refine assigned_extended (b := if s3 then (regs t (L - 1)).getLsbD (rWidth op w1 w2 - 1) else false) (x := regs t (L - 1)) ?_ ?_ ?_ hsz rfl
        (eval_last kr (by omega) rfl _)
      · cases s3
        · simp [size]
        · simp only [if_true, size, kr, if_pos (show L - 1 < 2 ^ 31 by omega), if_pos (show rWidth op w1 w2 - 1 < 2 ^ 31 by omega)]
      · cases s3 <;> rfl
      · cases s3
        · exact eval_lit0 _ _ _
        · exact eval_lastTop kr (by omega) hrp hrl rfl _
    · exact ⟨_, _, k3, assigned_part kc h3 (Nat.le_max_left _ _) rfl⟩
  · intro s hs t
    have hs : s = shiftStmt (L - 1) (opExpr op) := by subst hM; simpa [binaryMod, prepares, Mod.procs] using hs
    subst hs
    have : M.regs = ["r", "i"] := by subst hM; rfl
    rw [this]
    exact shift_step ki kr (by omega) rfl rfl rfl rfl (assigned_op op s3 kp1 kp2 rfl rfl)

end Verif.Vlog
