import Verif.Vlog.Parse
import Verif.Hw.Stubs
/-
What the statements and the expressions of the library's modules do.
-/
namespace Verif.Vlog
open Verif.Hw

/-! ### Patterns -/

theorem toInt_small {s : Bool} {w v : Nat} (h : 2 * v < 2 ^ w) : toInt s w v = v := by
  unfold toInt
  rw [if_neg (by omega)]

theorem toInt_false (w v : Nat) : toInt false w v = v := by
  unfold toInt
  simp

theorem extend_same (s : Bool) {w v : Nat} (h : v < 2 ^ w) : extend s w w v = v := by
  unfold extend toInt
  split
  · rw [Int.sub_emod_right, Int.emod_eq_of_lt (by omega) (by exact_mod_cast h)]
    rfl
  · rw [Int.emod_eq_of_lt (by omega) (by exact_mod_cast h)]
    rfl

theorem extend_false (w W v : Nat) : extend false w W v = v % 2 ^ W := by
  unfold extend
  rw [toInt_false]
  have : ((v : Int) % 2 ^ W) = ((v % 2 ^ W : Nat) : Int) := by push_cast; rfl
  rw [this]; rfl

theorem copies_zero (w k : Nat) : copies w 0 k = 0 := by
  induction k with
  | zero => rfl
  | succ k ih => rw [copies, ih]; omega

theorem copies_one (k : Nat) : copies 1 1 k = 2 ^ k - 1 := by
  induction k with
  | zero => rfl
  | succ k ih =>
    rw [copies, ih, Nat.pow_succ]
    have := Nat.one_le_two_pow (n := k)
    omega

/-- `{k{b}, x}`. -/
theorem repCat_toNat {w : Nat} (k : Nat) (b : Bool) (x : BitVec w) :
    (repCat k b x).toNat = copies 1 b.toNat k * 2 ^ w + x.toNat := by
  unfold repCat
  rw [BitVec.toNat_append, Nat.shiftLeft_eq, Nat.mul_comm, ← Nat.two_pow_add_eq_or_of_lt x.isLt, Nat.mul_comm]
  cases b
  · simp [copies_zero]
  · simp [copies_one]

/-! ### Determinism -/

theorem Exec.det {D : Scope} {s : Stmt} {σ τ τ' : Store} {us vs : List Update} (h : Exec D s σ τ us) (h' : Exec D s σ τ' vs) : τ = τ' ∧ us = vs := by
  induction h generalizing τ' vs with
  | skip => cases h'; exact ⟨rfl, rfl⟩
  | seq _ _ ih1 ih2 =>
    cases h' with
    | seq a b =>
      obtain ⟨rfl, rfl⟩ := ih1 a
      obtain ⟨rfl, rfl⟩ := ih2 b
      exact ⟨rfl, rfl⟩
  | blocking hu => cases h' with | blocking hu' => rw [hu] at hu'; cases hu'; exact ⟨rfl, rfl⟩
  | nonblocking hu => cases h' with | nonblocking hu' => rw [hu] at hu'; cases hu'; exact ⟨rfl, rfl⟩
  | stop hc =>
    cases h' with
    | stop _ => exact ⟨rfl, rfl⟩
    | turn hc' hn _ _ => rw [hc] at hc'; cases hc'; exact absurd rfl hn
  | turn hc hn _ _ ih1 ih2 =>
    cases h' with
    | stop hc' => rw [hc] at hc'; cases hc'; exact absurd rfl hn
    | turn _ _ a b =>
      obtain ⟨rfl, rfl⟩ := ih1 a
      obtain ⟨rfl, rfl⟩ := ih2 b
      exact ⟨rfl, rfl⟩

/-! ### The loop -/

/-- The store with `k` in `i`. -/
def setI (σ : Store) (k : Nat) : Store := { σ with vec := fun y => if y = "i" then k else σ.vec y }

theorem setI_setI (σ : Store) (k j : Nat) : Update.apply (setI σ k) (.vec "i" j) = setI σ j := by
  simp only [Update.apply, setI, Store.mk.injEq, and_true]
  funext y
  split <;> simp [*]

theorem setI_apply (σ : Store) (j : Nat) : Update.apply σ (.vec "i" j) = setI σ j := rfl

theorem setI_other (σ : Store) (k : Nat) {x : String} (h : x ≠ "i") : (setI σ k).vec x = σ.vec x := if_neg h

theorem setI_i (σ : Store) (k : Nat) : (setI σ k).vec "i" = k := by simp [setI]

section Loop

variable {D : Scope} {w n : Nat} (hi : D "i" = some (.vec true 32)) (hr : D "r" = some (.mem false w (n + 1)))
include hi

theorem size_i : size D (.id "i") = some 32 := by simp only [size, hi]

theorem signed_i : signed D (.id "i") = true := by simp only [signed, hi]

theorem eval_i (σ : Store) {k : Nat} (hk : k < 2 ^ 31) (s : Bool) : eval D (setI σ k) 32 s (.id "i") = some k := by
  simp only [eval, hi, setI_i]
  rw [extend_same _ (by omega)]

theorem eval_num (σ : Store) {k : Nat} (hk : k < 2 ^ 31) (s : Bool) : eval D σ 32 s (.num k) = some k := by
  simp only [eval, if_pos hk]
  rw [extend_same _ (by omega)]

theorem cond_i (σ : Store) {k : Nat} (hk : k < 2 ^ 31) : self D (setI σ k) (.bin .ne (.id "i") (.num 0)) = some (if k = 0 then 0 else 1) := by
  have h0 : size D (.num 0) = some 32 := by simp [size]
  simp only [self, size, hi, BinOp.isComp, if_true]
  have h1 : (if 0 < 2 ^ 31 then some 32 else none) = some 32 := by decide
  rw [h1]
  simp only [eval, size, hi, BinOp.isComp, if_true, h1, Nat.max_self, setI_i]
  rw [extend_same _ (by omega), if_pos (by decide)]
  rw [extend_same (w := 32) (v := 0) _ (by decide)]
  simp only [operate]
  by_cases h : k = 0
  · subst h; simp [extend_same]
  · simp [h, extend_same]

theorem eval_dec (σ : Store) {k : Nat} (hk : k < 2 ^ 31) (h : 0 < k) (s : Bool) :
    eval D (setI σ k) 32 s (.bin .sub (.id "i") (.num 1)) = some (k - 1) := by
  rw [eval, if_neg (by decide), eval_i hi σ hk, eval_num hi _ (by decide)]
  simp only [operate]
  rw [Int.emod_eq_of_lt (by omega) (by omega)]
  congr 1
  omega

theorem size_dec : size D (.bin .sub (.id "i") (.num 1)) = some 32 := by
  simp [size, hi, BinOp.isComp]

theorem signed_dec : signed D (.bin .sub (.id "i") (.num 1)) = true := by
  simp [signed, hi, BinOp.isComp]

theorem update_dec (σ : Store) {k : Nat} (hk : k < 2 ^ 31) (h : 0 < k) :
    update D (setI σ k) (.id "i") (.bin .sub (.id "i") (.num 1)) = some (.vec "i" (k - 1)) := by
  simp only [update, hi, assigned, size_dec hi, Nat.max_self, signed_dec hi, eval_dec hi σ hk h, Option.map_some]
  rw [Nat.mod_eq_of_lt (by omega)]

theorem update_init (σ : Store) {k : Nat} (hk : k < 2 ^ 31) : update D σ (.id "i") (.num k) = some (.vec "i" k) := by
  simp only [update, hi, assigned, size, if_pos hk, Nat.max_self, eval_num hi σ hk, Option.map_some]
  rw [Nat.mod_eq_of_lt (by omega)]

include hr

theorem eval_r {σ : Store} {e : Expr} {k : Nat} (hs : size D e = some 32) (he : eval D σ 32 (signed D e) e = some k) (hk : k ≤ n) (hn : n < 2 ^ 31)
    (hf : σ.mem "r" k < 2 ^ w) (s : Bool) : eval D σ w s (.sel "r" e) = some (σ.mem "r" k) := by
  rw [eval]
  simp only [hs, he, Option.map_some, hr]
  rw [toInt_small (by omega), if_pos (by omega), Int.toNat_natCast, extend_same _ hf]

theorem update_shift (σ : Store) {k : Nat} (hn : n < 2 ^ 31) (hk : k ≤ n) (h : 0 < k) (hf : ∀ j ≤ n, σ.mem "r" j < 2 ^ w) :
    update D (setI σ k) (.sel "r" (.id "i")) (.sel "r" (.bin .sub (.id "i") (.num 1))) = some (.mem "r" k (σ.mem "r" (k - 1))) := by
  have hsz : size D (.sel "r" (.bin .sub (.id "i") (.num 1))) = some w := by rw [size, hr, size_dec hi]
  have hev : eval D (setI σ k) w (signed D (.sel "r" (.bin .sub (.id "i") (.num 1)))) (.sel "r" (.bin .sub (.id "i") (.num 1))) =
      some (σ.mem "r" (k - 1)) :=
    eval_r hi hr (σ := setI σ k) (size_dec hi) (eval_dec hi σ (by omega) h _) (by omega) hn (hf _ (by omega)) _
  simp only [update, hr, size_i hi, self, eval_i hi σ (show k < 2 ^ 31 by omega), Option.map_some, assigned, hsz, Nat.max_self, hev]
  rw [toInt_small (by omega), if_pos (by omega), Int.toNat_natCast, Nat.mod_eq_of_lt (hf _ (by omega))]

/-- The loop schedules `r[k] <= r[k - 1]`, …, `r[1] <= r[0]`. -/
theorem loop_exec (σ : Store) (hn : n < 2 ^ 31) (hf : ∀ j ≤ n, σ.mem "r" j < 2 ^ w) (k : Nat) (hk : k ≤ n) :
    Exec D (.loop (.bin .ne (.id "i") (.num 0))
        (.seq (.seq (.nonblocking (.sel "r" (.id "i")) (.sel "r" (.bin .sub (.id "i") (.num 1)))) .skip)
          (.blocking (.id "i") (.bin .sub (.id "i") (.num 1))))) (setI σ k) (setI σ 0)
      ((shiftLoop (σ.mem "r") k).map fun a : Nat × Nat => Update.mem "r" a.1 a.2) := by
  induction k with
  | zero => exact Exec.stop (by rw [cond_i hi σ (by omega)]; rfl)
  | succ k ih =>
    have hu := update_shift hi hr σ hn hk (by omega) hf
    have hd := update_dec hi σ (k := k + 1) (by omega) (by omega)
    have e := Exec.blocking hd
    rw [setI_setI] at e
    have := Exec.turn (c := .bin .ne (.id "i") (.num 0)) (v := 1) (by rw [cond_i hi σ (by omega), if_neg (by omega)]) (by decide)
      (Exec.seq (Exec.seq (Exec.nonblocking hu) Exec.skip) e) (ih (by omega))
    simpa [shiftLoop] using this

/-- A clock edge. -/
theorem shift_exec (σ : Store) (hn : n < 2 ^ 31) (hf : ∀ j ≤ n, σ.mem "r" j < 2 ^ w) {e : Expr} {v : Nat} (he : assigned D (setI σ 0) w e = some v) :
    Exec D (shiftStmt n e) σ (setI σ 0) ((shiftLoop (σ.mem "r") n ++ [(0, v)]).map fun a : Nat × Nat => Update.mem "r" a.1 a.2) := by
  have h1 := Exec.blocking (update_init hi σ hn)
  rw [setI_apply] at h1
  have hu : update D (setI σ 0) (.sel "r" (.num 0)) e = some (.mem "r" 0 v) := by
    simp only [update, hr, size, he, self]
    have h1 : (if 0 < 2 ^ 31 then some 32 else none) = some 32 := by decide
    rw [h1]
    simp only [eval_num hi _ (show 0 < 2 ^ 31 by decide), Option.map_some]
    rw [toInt_small (by decide), he]
    simp only []
    rw [if_pos (by omega)]
    rfl
  have := Exec.seq (Exec.seq h1 (loop_exec hi hr σ hn hf n (Nat.le_refl _))) (Exec.seq (Exec.nonblocking hu) Exec.skip)
  simpa [shiftStmt, List.map_append] using this

end Loop

theorem foldl_mem (as : List (Nat × Nat)) (σ : Store) :
    ((as.map fun a => Update.mem "r" a.1 a.2).foldl Update.apply σ).mem "r" = applyNba (σ.mem "r") as := by
  induction as generalizing σ with
  | nil => rfl
  | cons a as ih =>
    rw [List.map_cons, List.foldl_cons, ih]
    simp only [applyNba, List.foldl_cons]
    congr 1
    funext j
    simp [Update.apply]

theorem foldl_vec (as : List (Nat × Nat)) (σ : Store) : ((as.map fun a => Update.mem "r" a.1 a.2).foldl Update.apply σ).vec = σ.vec := by
  induction as generalizing σ with
  | nil => rfl
  | cons a as ih => rw [List.map_cons, List.foldl_cons, ih]; rfl

theorem foldl_mem_other (as : List (Nat × Nat)) (σ : Store) {x : String} (h : x ≠ "r") :
    ((as.map fun a => Update.mem "r" a.1 a.2).foldl Update.apply σ).mem x = σ.mem x := by
  induction as generalizing σ with
  | nil => rfl
  | cons a as ih =>
    rw [List.map_cons, List.foldl_cons, ih]
    funext j
    simp [Update.apply, h]

/-- What an edge makes of `r`. -/
theorem shift_edge {D : Scope} {w n : Nat} (hi : D "i" = some (.vec true 32)) (hr : D "r" = some (.mem false w (n + 1))) {σ : Store} (hn : n < 2 ^ 31)
    (hf : ∀ j ≤ n, σ.mem "r" j < 2 ^ w) {e : Expr} {v : Nat} (he : assigned D (setI σ 0) w e = some v) {τ : Store} (h : Edge D (shiftStmt n e) σ τ) :
    τ.mem "r" = shiftEdge n (σ.mem "r") v := by
  obtain ⟨σ', us, h, rfl⟩ := h
  obtain ⟨rfl, rfl⟩ := h.det (shift_exec hi hr σ hn hf he)
  rw [foldl_mem]
  rfl

/-- Shift registers commute with functions. -/
theorem shiftEdge_map {α β : Type} (f : α → β) (n : Nat) (r : Nat → α) (x : α) (j : Nat) :
    f (shiftEdge n r x j) = shiftEdge n (fun i => f (r i)) (f x) j := by
  have h1 : ∀ k, shiftLoop (fun i => f (r i)) k = (shiftLoop r k).map fun a => (a.1, f a.2) := by
    intro k
    induction k with
    | zero => rfl
    | succ k ih => simp [shiftLoop, ih]
  have h2 : ∀ (as : List (Nat × α)) (r : Nat → α), (fun j => f (applyNba r as j)) = applyNba (fun i => f (r i)) (as.map fun a => (a.1, f a.2)) := by
    intro as
    induction as with
    | nil => intro r; rfl
    | cons a as ih =>
      intro r
      have := ih (fun j => if j = a.1 then a.2 else r j)
      simp only [applyNba, List.foldl_cons, List.map_cons] at this ⊢
      rw [this]
      congr 1
      funext j
      split <;> rfl
  have := congrFun (h2 (shiftLoop r n ++ [(0, x)]) r) j
  rw [List.map_append, ← h1] at this
  exact this

theorem shiftState_map {α β : Type} (f : α → β) (n : Nat) (r : Nat → α) (x : Nat → α) (t j : Nat) :
    f (shiftState n r x t j) = shiftState n (fun i => f (r i)) (fun t => f (x t)) t j := by
  induction t generalizing j with
  | zero => rfl
  | succ t ih =>
    rw [shiftState, shiftState, shiftEdge_map f]
    congr 1
    funext i
    exact ih i

end Verif.Vlog
