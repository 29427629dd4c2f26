import Verif.Vlog.Exist
/-
Which modules of the library are legal.
-/
namespace Verif.Vlog
open Verif.Hw Verif.Tpl

theorem shift_legal {D : Scope} {w n : Nat} (hi : D "i" = some (.vec true 32)) (hr : D "r" = some (.mem false w (n + 1))) (hn : n < 2 ^ 31) {e : Expr}
    {k : Nat} (he : size D e = some k) : (shiftStmt n e).legal D ["r", "i"] = true := by
  have h0 : (if 0 < 2 ^ 31 then some 32 else none) = some 32 := by decide
  have h1 : (if 1 < 2 ^ 31 then some 32 else none) = some 32 := by decide
  simp only [shiftStmt, Stmt.legal, hi, hr, size, hn, he, BinOp.isComp, if_true, h0, h1]
  simp

theorem fifo_legal (x : String) {a n : Nat} (hn : n < 2 ^ 31) : Legal (fifoMod x a n) := by
  have hr : (fifoMod x a n).scope "r" = some (.mem false (a + 1) (n + 1)) := by kernel_rfl
  have hi : (fifoMod x a n).scope "i" = some (.vec true 32) := by kernel_rfl
  have ha1 : (fifoMod x a n).scope "arg1" = some (.vec false (a + 1)) := by kernel_rfl
  have hres : (fifoMod x a n).scope "res1" = some (.vec false (a + 1)) := by kernel_rfl
  have hg : (fifoMod x a n).regs = ["r", "i"] := rfl
  refine ⟨?_, ?_, ?_, ?_, ?_, ?_⟩
  · show ["arg1", "res1", "clk", "r", "i"].Nodup
    decide
  · simp [fifoMod]
  · intro y e hm
    obtain ⟨rfl, rfl⟩ : y = "res1" ∧ e = .sel "r" (.num n) := by simpa [fifoMod] using hm
    refine ⟨by rw [hg]; decide, by simp [fifoMod], ⟨_, _, hres⟩, a + 1, ?_, by omega⟩
    simp only [size, hr, if_pos hn]
  · simp [fifoMod]
  · simp [fifoMod, Mod.procs]
  · intro c s hm
    obtain ⟨rfl, rfl⟩ : c = "clk" ∧ s = shiftStmt n (.id "arg1") := by simpa [fifoMod] using hm
    refine ⟨?_, by simp [fifoMod]⟩
    rw [hg]
    exact shift_legal hi hr hn (k := a + 1) (by simp only [size, ha1])

theorem size_extended {D : Scope} {v e : Expr} {k w : Nat} (hv : size D v = some 1) (hu : unsized v = false) (he : size D e = some w)
    (hu' : unsized e = false) : size D (extended k v e) = some (k * 1 + w) := by
  simp [extended, size, unsized, hv, hu, he, hu']

theorem size_part {D : Scope} {x : String} {s : Bool} {w b : Nat} (h : D x = some (.vec s w)) (hb : b < w) : size D (.part x b 0) = some (b + 1) := by
  simp only [size, h, if_pos (show 0 ≤ b ∧ b < w by omega)]
  rfl

theorem size_filler' {D : Scope} {x : String} {s s' : Bool} {w a : Nat} (h : D x = some (.vec s w)) (ha : a < 2 ^ 31) :
    size D (filler s' x a) = some 1 := by
  cases s'
  · simp [filler, size]
  · simp only [filler, if_true, size, h, if_pos ha]

theorem combCast_legal (x : String) {a b k c : Nat} (s : Bool) (ha : a < 2 ^ 31) (hc : b ≤ c) : Legal (combCastMod x a b k c s) := by
  generalize hM : combCastMod x a b k c s = M
  have ha1 : M.scope "arg1" = some (.vec false (a + 1)) := by subst hM; kernel_rfl
  have hres : M.scope "res1" = some (.vec false (b + 1)) := by subst hM; kernel_rfl
  have hcat : M.scope "cat" = some (.vec false (c + 1)) := by subst hM; kernel_rfl
  have hg : M.regs = [] := by subst hM; rfl
  have hsz : size M.scope (.id "arg1") = some (a + 1) := by simp only [size, ha1]
  refine ⟨?_, ?_, ?_, ?_, ?_, ?_⟩
  · subst hM
    show ["arg1", "res1", "clk", "cat"].Nodup
    decide
  · subst hM; simp [combCastMod]
  · intro y e hm
    have hm : (y = "cat" ∧ e = extended k (filler s "arg1" a) (.id "arg1")) ∨ (y = "res1" ∧ e = .part "cat" b 0) := by
      subst hM; simpa [combCastMod] using hm
    rcases hm with ⟨rfl, rfl⟩ | ⟨rfl, rfl⟩
    · exact ⟨by rw [hg]; simp, by subst hM; simp [combCastMod], ⟨_, _, hcat⟩, _, size_extended (size_filler' ha1 ha) (unsized_filler _ _ _) hsz rfl, by omega⟩
    · exact ⟨by rw [hg]; simp, by subst hM; simp [combCastMod], ⟨_, _, hres⟩, _, size_part hcat (by omega), by omega⟩
  · subst hM; simp [combCastMod]
  · subst hM; simp [combCastMod, Mod.procs]
  · subst hM; intro c s hm; simp [combCastMod] at hm

theorem cast_legal (x : String) {a b k c n : Nat} (s : Bool) (ha : a < 2 ^ 31) (hn : n < 2 ^ 31) (hc : b ≤ c) : Legal (castMod x a b k c n s) := by
  generalize hM : castMod x a b k c n s = M
  have ha1 : M.scope "arg1" = some (.vec false (a + 1)) := by subst hM; kernel_rfl
  have hres : M.scope "res1" = some (.vec false (b + 1)) := by subst hM; kernel_rfl
  have hcat : M.scope "cat" = some (.vec false (c + 1)) := by subst hM; kernel_rfl
  have hi : M.scope "i" = some (.vec true 32) := by subst hM; kernel_rfl
  have hr : M.scope "r" = some (.mem false (a + 1) (n + 1)) := by subst hM; kernel_rfl
  have hg : M.regs = ["r", "i"] := by subst hM; rfl
  have hsz : size M.scope (.sel "r" (.num n)) = some (a + 1) := by simp only [size, hr, if_pos hn]
  refine ⟨?_, ?_, ?_, ?_, ?_, ?_⟩
  · subst hM
    show ["arg1", "res1", "clk", "r", "cat", "i"].Nodup
    decide
  · subst hM; simp [castMod]
  · intro y e hm
    have hm : (y = "cat" ∧ e = extended k (filler s "arg1" a) (.sel "r" (.num n))) ∨ (y = "res1" ∧ e = .part "cat" b 0) := by
      subst hM; simpa [castMod] using hm
    rcases hm with ⟨rfl, rfl⟩ | ⟨rfl, rfl⟩
    · exact ⟨by rw [hg]; decide, by subst hM; simp [castMod], ⟨_, _, hcat⟩, _, size_extended (size_filler' ha1 ha) (unsized_filler _ _ _) hsz rfl, by omega⟩
    · exact ⟨by rw [hg]; decide, by subst hM; simp [castMod], ⟨_, _, hres⟩, _, size_part hcat (by omega), by omega⟩
  · subst hM; simp [castMod]
  · subst hM; simp [castMod, Mod.procs]
  · intro c s hm
    obtain ⟨rfl, rfl⟩ : c = "clk" ∧ s = shiftStmt n (.id "arg1") := by subst hM; simpa [castMod] using hm
    refine ⟨?_, by subst hM; simp [castMod]⟩
    rw [hg]
    exact shift_legal hi hr hn (k := a + 1) (by simp only [size, ha1])

theorem size_op {D : Scope} (op : VOp) {s1 s2 : Bool} {p : Nat} (hp1 : D "arg1_prepared" = some (.vec s1 p)) (hp2 : D "arg2_prepared" = some (.vec s2 p))
    (h : 0 < p) : ∃ n, size D (opExpr op) = some n ∧ 0 < n := by
  refine ⟨if (vBinOp op).isComp then 1 else max p p, ?_, ?_⟩
  · simp only [opExpr, size, hp1, hp2]
  · split <;> omega

/-- A binary operation without registers is legal if its result is unsigned … -/
theorem combBinary_legal (x : String) (op : VOp) (s1 s2 : Bool) {W : Widths} (ha : W.a < 2 ^ 31) (hb : W.b < 2 ^ 31) (hc : W.c ≤ W.cat) :
    Legal (combBinaryMod x op s1 s2 false W) := by
  generalize hM : combBinaryMod x op s1 s2 false W = M
  have k1 : M.scope "arg1" = some (.vec s1 (W.a + 1)) := by subst hM; kernel_rfl
  have k2 : M.scope "arg2" = some (.vec s2 (W.b + 1)) := by subst hM; kernel_rfl
  have k3 : M.scope "res1" = some (.vec false (W.c + 1)) := by subst hM; kernel_rfl
  have kc : M.scope "cat" = some (.vec false (W.cat + 1)) := by subst hM; kernel_rfl
  have kr : M.scope "r" = some (.vec false (W.r + 1)) := by subst hM; kernel_rfl
  have kp1 : M.scope "arg1_prepared" = some (.vec s1 (W.p + 1)) := by subst hM; kernel_rfl
  have kp2 : M.scope "arg2_prepared" = some (.vec s2 (W.p + 1)) := by subst hM; kernel_rfl
  have z1 : size M.scope (.id "arg1") = some (W.a + 1) := by simp only [size, k1]
  have z2 : size M.scope (.id "arg2") = some (W.b + 1) := by simp only [size, k2]
  have zr : size M.scope (.id "r") = some (W.r + 1) := by simp only [size, kr]
  have hg : M.regs = [] := by subst hM; rfl
  refine ⟨?_, ?_, ?_, ?_, ?_, ?_⟩
  · subst hM
    show ["arg1", "arg2", "res1", "clk", "r", "cat", "arg1_prepared", "arg2_prepared"].Nodup
    decide
  · subst hM
    show ["arg1_prepared", "arg2_prepared", "r", "cat", "res1"].Nodup
    decide
  · intro y e hm
    have hm : (y = "arg1_prepared" ∧ e = extended W.k1 (filler false "arg1" W.a) (.id "arg1")) ∨
        (y = "arg2_prepared" ∧ e = extended W.k2 (filler false "arg2" W.b) (.id "arg2")) ∨ (y = "r" ∧ e = opExpr op) ∨
        (y = "cat" ∧ e = extended W.k3 (.lit 1 0) (.id "r")) ∨ (y = "res1" ∧ e = .part "cat" W.c 0) := by
      subst hM; simpa [combBinaryMod, prepares] using hm
    have hp : ∀ p ∈ M.ports, p.output = false → p.name ∈ ["arg1", "arg2", "clk"] := by subst hM; simp [combBinaryMod, binPorts]
    rcases hm with ⟨rfl, rfl⟩ | ⟨rfl, rfl⟩ | ⟨rfl, rfl⟩ | ⟨rfl, rfl⟩ | ⟨rfl, rfl⟩
    · exact ⟨by rw [hg]; simp, fun p hm ho e => by have := hp p hm ho; rw [e] at this; revert this; decide, ⟨_, _, kp1⟩, _,
        size_extended (size_filler' k1 ha) (unsized_filler _ _ _) z1 rfl, by omega⟩
    · exact ⟨by rw [hg]; simp, fun p hm ho e => by have := hp p hm ho; rw [e] at this; revert this; decide, ⟨_, _, kp2⟩, _,
        size_extended (size_filler' k2 hb) (unsized_filler _ _ _) z2 rfl, by omega⟩
    · exact ⟨by rw [hg]; simp, fun p hm ho e => by have := hp p hm ho; rw [e] at this; revert this; decide, ⟨_, _, kr⟩, size_op op kp1 kp2 (by omega)⟩
    · exact ⟨by rw [hg]; simp, fun p hm ho e => by have := hp p hm ho; rw [e] at this; revert this; decide, ⟨_, _, kc⟩, _,
        size_extended (by simp [size]) rfl zr rfl, by omega⟩
    · exact ⟨by rw [hg]; simp, fun p hm ho e => by have := hp p hm ho; rw [e] at this; revert this; decide, ⟨_, _, k3⟩, _, size_part kc (by omega), by omega⟩
  · subst hM; simp [combBinaryMod, binPorts]
  · subst hM; simp [combBinaryMod, prepares, Mod.procs]
  · subst hM; intro c s hm; simp [combBinaryMod, prepares] at hm

/-- … and not if it is signed: `r[-1][…]` is a bit of a bit. -/
theorem combBinary_illegal (x : String) (op : VOp) (s1 s2 : Bool) (W : Widths) : ¬ Legal (combBinaryMod x op s1 s2 true W) := by
  intro h
  obtain ⟨_, _, _, n, hn, _⟩ := h.nets "cat" (extended W.k3 (.sel2 "r" (.neg (.num 1)) (.num W.r)) (.id "r")) (by simp [combBinaryMod])
  have kr : (combBinaryMod x op s1 s2 true W).scope "r" = some (.vec false (W.r + 1)) := by kernel_rfl
  have : size (combBinaryMod x op s1 s2 true W).scope (.sel2 "r" (.neg (.num 1)) (.num W.r)) = none := by simp only [size, kr]
  simp [extended, size, unsized, kr] at hn

theorem binary_legal (x : String) (op : VOp) (s1 s2 s3 : Bool) {W : Widths} {n : Nat} (ha : W.a < 2 ^ 31) (hb : W.b < 2 ^ 31) (hr : W.r < 2 ^ 31)
    (hn : n < 2 ^ 31) (hc : W.c ≤ W.cat) : Legal (binaryMod x op s1 s2 s3 W n) := by
  generalize hM : binaryMod x op s1 s2 s3 W n = M
  have k1 : M.scope "arg1" = some (.vec s1 (W.a + 1)) := by subst hM; kernel_rfl
  have k2 : M.scope "arg2" = some (.vec s2 (W.b + 1)) := by subst hM; kernel_rfl
  have k3 : M.scope "res1" = some (.vec s3 (W.c + 1)) := by subst hM; kernel_rfl
  have kc : M.scope "cat" = some (.vec false (W.cat + 1)) := by subst hM; kernel_rfl
  have kr : M.scope "r" = some (.mem false (W.r + 1) (n + 1)) := by subst hM; kernel_rfl
  have ki : M.scope "i" = some (.vec true 32) := by subst hM; kernel_rfl
  have kp1 : M.scope "arg1_prepared" = some (.vec s1 (W.p + 1)) := by subst hM; kernel_rfl
  have kp2 : M.scope "arg2_prepared" = some (.vec s2 (W.p + 1)) := by subst hM; kernel_rfl
  have z1 : size M.scope (.id "arg1") = some (W.a + 1) := by simp only [size, k1]
  have z2 : size M.scope (.id "arg2") = some (W.b + 1) := by simp only [size, k2]
  have zr : size M.scope (.sel "r" (.num n)) = some (W.r + 1) := by simp only [size, kr, if_pos hn]
  have hg : M.regs = ["r", "i"] := by subst hM; rfl
  refine ⟨?_, ?_, ?_, ?_, ?_, ?_⟩
  · subst hM
    show ["arg1", "arg2", "res1", "clk", "r", "cat", "arg1_prepared", "arg2_prepared", "i"].Nodup
    decide
  · subst hM
    show ["arg1_prepared", "arg2_prepared", "cat", "res1"].Nodup
    decide
  · intro y e hm
    have hm : (y = "arg1_prepared" ∧ e = extended W.k1 (filler s3 "arg1" W.a) (.id "arg1")) ∨
        (y = "arg2_prepared" ∧ e = extended W.k2 (filler s3 "arg2" W.b) (.id "arg2")) ∨
        (y = "cat" ∧ e = extended W.k3 (if s3 then .sel2 "r" (.num n) (.num W.r) else .lit 1 0) (.sel "r" (.num n))) ∨
        (y = "res1" ∧ e = .part "cat" W.c 0) := by
      subst hM; simpa [binaryMod, prepares] using hm
    have hp : ∀ p ∈ M.ports, p.output = false → p.name ∈ ["arg1", "arg2", "clk"] := by subst hM; simp [binaryMod, binPorts]
    rcases hm with ⟨rfl, rfl⟩ | ⟨rfl, rfl⟩ | ⟨rfl, rfl⟩ | ⟨rfl, rfl⟩
    · exact ⟨by rw [hg]; decide, fun p hm ho e => by have := hp p hm ho; rw [e] at this; revert this; decide, ⟨_, _, kp1⟩, _,
        size_extended (size_filler' k1 ha) (unsized_filler _ _ _) z1 rfl, by omega⟩
    · exact ⟨by rw [hg]; decide, fun p hm ho e => by have := hp p hm ho; rw [e] at this; revert this; decide, ⟨_, _, kp2⟩, _,
        size_extended (size_filler' k2 hb) (unsized_filler _ _ _) z2 rfl, by omega⟩
    · refine ⟨by rw [hg]; decide, fun p hm ho e => by have := hp p hm ho; rw [e] at this; revert this; decide, ⟨_, _, kc⟩, _,
        size_extended ?_ (by cases s3 <;> rfl) zr rfl, by omega⟩
      cases s3
      · simp [size]
      · simp only [if_true, size, kr, if_pos hn, if_pos hr]
    · exact ⟨by rw [hg]; decide, fun p hm ho e => by have := hp p hm ho; rw [e] at this; revert this; decide, ⟨_, _, k3⟩, _, size_part kc (by omega), by omega⟩
  · subst hM; simp [binaryMod, binPorts]
  · subst hM; simp [binaryMod, prepares, Mod.procs]
  · intro c s hm
    obtain ⟨rfl, rfl⟩ : c = "clk" ∧ s = shiftStmt n (opExpr op) := by subst hM; simpa [binaryMod, prepares] using hm
    refine ⟨?_, by subst hM; simp [binaryMod, binPorts]⟩
    rw [hg]
    obtain ⟨k, hk, _⟩ := size_op op kp1 kp2 (by omega)
    exact shift_legal ki kr hn hk

end Verif.Vlog
