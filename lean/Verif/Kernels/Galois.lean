import Verif.Kernels.Rules
/-
What `Galois8Mul` and `KuznechikGalois8Mul` build.
-/
namespace Verif.Kernels
open Verif.Dfcxx Verif.Flow

section
variable {F : FloatOps} {Z : String → Prop} {N : List Nat} {w : World}

theorem galoisAdd_does (hg : Good F Z N w) {c0 curr left right : Nat} {x l r : (Nat → Pat) → BitVec 8} (h0 : Cst w c0 0#8) (hx : Val w curr x)
    (hl : Val w left l) (hr : Str Z w right r) :
    Does F Z N (galoisAdd F c0 curr left right) w
      (fun n w' => Str Z w' n (fun ρ => x ρ ^^^ Std.mux ((r ρ).extractLsb' 0 1) [0#8, l ρ])) := by
  unfold galoisAdd
  refine (hg.bits hr.val hr.here (hi := 0) (lo := 0) (m := 1) rfl (Nat.le_refl _) (by omega)).bind fun b w1 g1 s1 q1 => ?_
  refine (g1.mux q1 (as := [c0, left]) (ys := [fun _ => 0#8, l]) (.cons (h0.mono s1).val (.cons (hl.mono s1) .nil)) (by simp)
    (.inl (by simp))).bind fun m w2 g2 s2 q2 => ?_
  exact g2.xor ((hx.mono s1).mono s2) q2.val (.inr (q2.notConst g2))

/-- The state of the loop. -/
def GaloisR (Z : String → Prop) (s : Nat × Nat × Nat) (t : (Nat → Pat) → BitVec 8 × BitVec 8 × BitVec 8) (w : World) : Prop :=
  Val w s.1 (fun ρ => (t ρ).1) ∧ Loc w s.2.1 (fun ρ => (t ρ).2.1) ∧ Str Z w s.2.2 (fun ρ => (t ρ).2.2)

theorem galoisIter_does (hg : Good F Z N w) {c0 c195 : Nat} (h0 : Cst w c0 0#8) (h195 : Cst w c195 195#8) {s : Nat × Nat × Nat}
    {t : (Nat → Pat) → BitVec 8 × BitVec 8 × BitVec 8} (hr : GaloisR Z s t w) :
    Does F Z N (galoisIter F c0 c195 s) w (fun s' w' => GaloisR Z s' (fun ρ => Std.galoisStep (t ρ)) w') := by
  obtain ⟨hx, hl, hr⟩ := hr
  unfold galoisIter
  refine (galoisAdd_does hg h0 hx hl.val hr).bind fun curr w1 g1 s1 q1 => ?_
  have hl1 := hl.mono s1
  refine (g1.bits hl1.val hl1.here (hi := 7) (lo := 7) (m := 1) rfl (Nat.le_refl _) (by omega)).bind fun b w2 g2 s2 q2 => ?_
  refine (g2.mux q2 (as := [c0, c195]) (ys := [fun _ => 0#8, fun _ => 195#8]) (.cons ((h0.mono s1).mono s2).val
    (.cons ((h195.mono s1).mono s2).val .nil)) (by simp) (.inl (by simp))).bind fun m w3 g3 s3 q3 => ?_
  have hl3 := (hl1.mono s2).mono s3
  refine (g3.shl hl3.val hl3.here hl3.notConst (s := 1) (by omega)).bind fun sh w4 g4 s4 q4 => ?_
  refine (g4.xor q4.val (q3.mono s4).val (.inl (q4.notConst g4))).bind fun left w5 g5 s5 q5 => ?_
  have hr5 := (((hr.mono s1).mono s2).mono s3).mono s4 |>.mono s5
  refine (g5.shr hr5.val hr5.here (hr5.notConst g5) (s := 1) (by omega)).bind fun right w6 g6 s6 q6 => ?_
  exact Does.pure g6 ⟨(((q1.mono s2).mono s3).mono s4 |>.mono s5 |>.mono s6).val, (q5.mono s6).loc g6, q6⟩

theorem galoisBody_does (hg : Good F Z N w) {left right : Nat} {l r : (Nat → Pat) → BitVec 8} (hl : Loc w left l) (hr : Str Z w right r) :
    Does F Z N (galoisBody F left right) w (fun n w' => Str Z w' n (fun ρ => Std.galois8Mul (l ρ) (r ρ))) := by
  unfold galoisBody
  refine (cst_does hg (by omega) (by omega) 0).bind fun c0 w1 g1 s1 h0 => ?_
  refine (cst_does g1 (by omega) (by omega) 195).bind fun c195 w2 g2 s2 h195 => ?_
  have h0' := h0.mono s2
  refine (foldB_does (R := fun s t w => GaloisR Z s t w) (g := fun _ t _ => Std.galoisStep t) (List.range 7) (c0, left, right)
    (fun ρ => (0#8, l ρ, r ρ)) w2 g2 ⟨h0'.val, (hl.mono s1).mono s2, (hr.mono s1).mono s2⟩
    fun a _ s t w3 g3 s3 r3 => galoisIter_does g3 (h0'.mono s3) (h195.mono s3) r3).bind fun s w3 g3 s3 ⟨hx, hl3, hr3⟩ => ?_
  exact galoisAdd_does g3 (h0'.mono s3) hx hl3.val hr3

/-- The first iteration on a constant "left", in the top kernel: the shift makes another constant. -/
theorem galoisIter_const_does (hg : Good F Z N w) (hcur : w.cur = 0) {c0 c195 : Nat} (h0 : Cst w c0 0#8) (h195 : Cst w c195 195#8) {curr left right : Nat}
    {x r : (Nat → Pat) → BitVec 8} {l : BitVec 8} (hx : Val w curr x) (hl : Cst w left l) (hr : Str Z w right r) :
    Does F Z N (galoisIter F c0 c195 (curr, left, right)) w
      (fun s' w' => GaloisR Z s' (fun ρ => Std.galoisStep (x ρ, l, r ρ)) w') := by
  unfold galoisIter
  refine (galoisAdd_does hg h0 hx hl.val hr).bind fun curr w1 g1 s1 q1 => ?_
  have hl1 := hl.mono s1
  refine (g1.bits hl1.val (by rw [hl1.kern, s1.cur, hcur]) (hi := 7) (lo := 7) (m := 1) rfl (Nat.le_refl _) (by omega)).bind fun b w2 g2 s2 q2 => ?_
  refine (g2.mux q2 (as := [c0, c195]) (ys := [fun _ => 0#8, fun _ => 195#8]) (.cons ((h0.mono s1).mono s2).val
    (.cons ((h195.mono s1).mono s2).val .nil)) (by simp) (.inl (by simp))).bind fun m w3 g3 s3 q3 => ?_
  have hl3 := (hl1.mono s2).mono s3
  refine (shlCst_does g3 (by omega) (by omega) hl3 (s := 1) (by omega)).bind fun sh w4 g4 s4 q4 => ?_
  have q3' := q3.mono s4
  refine (g4.xor q4.val q3'.val (.inr (q3'.notConst g4))).bind fun left w5 g5 s5 q5 => ?_
  have hr5 := (((hr.mono s1).mono s2).mono s3).mono s4 |>.mono s5
  refine (g5.shr hr5.val hr5.here (hr5.notConst g5) (s := 1) (by omega)).bind fun right w6 g6 s6 q6 => ?_
  exact Does.pure g6 ⟨(((q1.mono s2).mono s3).mono s4 |>.mono s5 |>.mono s6).val, (q5.mono s6).loc g6, q6⟩

/-- The method `galois8Mul` on a constant. -/
theorem galoisBody_const_does (hg : Good F Z N w) (hcur : w.cur = 0) {left right : Nat} {l : BitVec 8} {r : (Nat → Pat) → BitVec 8} (hl : Cst w left l)
    (hr : Str Z w right r) :
    Does F Z N (galoisBody F left right) w (fun n w' => Str Z w' n (fun ρ => Std.galois8Mul l (r ρ))) := by
  unfold galoisBody
  refine (cst_does hg (by omega) (by omega) 0).bind fun c0 w1 g1 s1 h0 => ?_
  refine (cst_does g1 (by omega) (by omega) 195).bind fun c195 w2 g2 s2 h195 => ?_
  have h0' := h0.mono s2
  rw [show List.range 7 = 0 :: List.range' 1 6 from rfl]
  unfold foldB
  rw [bind_assoc]
  refine (galoisIter_const_does g2 (by rw [s2.cur, s1.cur, hcur]) h0' h195 h0'.val ((hl.mono s1).mono s2) ((hr.mono s1).mono s2)).bind
    fun s w3 g3 s3 r3 => ?_
  refine (foldB_does (R := fun s t w => GaloisR Z s t w) (g := fun _ t _ => Std.galoisStep t) (List.range' 1 6) s
    (fun ρ => Std.galoisStep (0#8, l, r ρ)) w3 g3 r3
    fun a _ s t w4 g4 s4 r4 => galoisIter_does g4 ((h0'.mono s3).mono s4) ((h195.mono s3).mono s4) r4).bind fun s w4 g4 s4 ⟨hx, hl4, hr4⟩ => ?_
  exact galoisAdd_does g4 ((h0'.mono s3).mono s4) hx hl4.val hr4

/-- `Galois8Mul` computes the product; its "left" may be bound to a constant. -/
theorem galois8Mul_contract (hz : ¬ Z "right") :
    Contract F Z (fun _ => True) (galois8Mul F) [("left", 8), ("right", 8)] "result" 8 (fun l => Std.galois8Mul (arg 8 l 0) (arg 8 l 1)) :=
  two_in_contract (f := Std.galois8Mul)
    (fun x y r w => Str Z w r (fun ρ => Std.galois8Mul (BitVec.ofNat 8 (ρ x).2) (BitVec.ofNat 8 (ρ y).2)))
    (by decide) (by decide) (by decide) (by decide) (by decide) (by decide) (by decide) (fun _ _ _ _ h => h)
    (fun _ _ _ _ _ _ st h => h.mono st)
    (fun N w x y g _ p1 p2 => galoisBody_does g p1.loc (p2.str hz))
    (fun N w x y r g _ q => Does.pure g q)

/-! ### KuznechikGalois8Mul -/

theorem mulTable_len {c : Nat} {t : List Nat} (h : mulTable c = some t) : t.length = 256 := by
  unfold mulTable at h
  split at h <;> first | (cases h; decide +kernel) | cases h

theorem mulTable_spec {c : Nat} (hc : c ≠ 1) {t : List Nat} (h : mulTable c = some t) (x : BitVec 8) :
    Std.kuznechikGalois8Mul c x = some (Std.muxC 8 x t) := by
  unfold mulTable at h
  unfold Std.kuznechikGalois8Mul
  split at h <;> first | (cases h; rfl) | cases h

theorem mulTable_some {c : Nat} (hc : c ≠ 1) {x y : BitVec 8} (h : Std.kuznechikGalois8Mul c x = some y) : ∃ t, mulTable c = some t := by
  unfold Std.kuznechikGalois8Mul at h
  unfold mulTable
  split at h <;> first | exact absurd rfl hc | exact ⟨_, rfl⟩ | cases h

theorem kuznBody_does (hg : Good F Z N w) {c inp : Nat} {x : (Nat → Pat) → BitVec 8} (hx : Str Z w inp x)
    (hc : (Std.kuznechikGalois8Mul c 0).isSome) :
    Does F Z N (kuznBody F c inp) w (fun n w' => Str Z w' n (fun ρ => (Std.kuznechikGalois8Mul c (x ρ)).getD 0)) := by
  unfold kuznBody
  by_cases h1 : c = 1
  · rw [if_pos h1]
    subst h1
    exact Does.pure hg hx
  · rw [if_neg h1]
    obtain ⟨y, hy⟩ := Option.isSome_iff_exists.mp hc
    obtain ⟨t, ht⟩ := mulTable_some h1 hy
    rw [ht]
    refine (muxConsts_does hg (by omega) (by omega) hx t (by rw [mulTable_len ht]; decide)).weaken fun n w1 _ _ q => q.congr fun ρ _ => ?_
    rw [mulTable_spec h1 ht]
    rfl

/-- `KuznechikGalois8Mul(c)`: the product by `c`. -/
theorem kuznGalois_contract (hz : ¬ Z "in") {c : Nat} (hc : (Std.kuznechikGalois8Mul c 0).isSome) :
    Contract F Z (fun _ => True) (kuznGalois F c) [("in", 8)] "out" 8 (fun l => (Std.kuznechikGalois8Mul c (arg 8 l 0)).getD 0) := by
  refine ⟨by simp, fun N w hg hh _ => ?_⟩
  obtain ⟨x, w1, e1, g1, s1, p1⟩ := input_does (k := 8) hg (by omega) (by omega) (name := "in") (by decide) (by rw [hh]; simp)
  have hh1 : headNames w1 = [("in", x)] := by rw [headNames_step hg.inv s1, hh]; rfl
  obtain ⟨t1, t2, t3⟩ := uint_ok (k := 8) (by omega) (by omega)
  obtain ⟨o, w2, e2, no, g2, s2, l2, o2, k2, ty2⟩ := g1.output t1 t2 (name := "out") (by decide) (by rw [hh1]; simp)
  obtain ⟨s, w3, e3, g3, s3, q3⟩ := kuznBody_does g2 ((p1.mono s2).str hz) hc
  obtain ⟨f1, -, f3, -, -, f6⟩ := s3.same o l2 (by rw [o2]; simp)
  obtain ⟨w4, e4, g4, s4, i4, l4, fe4⟩ := g3.connect no (f1.trans o2) (by rw [f6, k2, s3.cur]) (by rw [f3, ty2]; exact t3) q3.val
  have p1' := p1.mono s2 |>.mono s3 |>.mono s4
  refine ⟨w4, _, [x], o, s, ?_, g4, ((s1.trans s2).trans s3).trans s4, ?_, ?_, ?_, ?_, i4, ?_⟩
  · unfold kuznGalois
    rw [build_bind e1, build_bind e2, build_bind e3, build_bind e4]
    rfl
  · exact .cons ⟨by simp [List.lookup], p1'.isIn, p1'.loc.val.width, p1'.kind⟩ .nil
  · intro q hq
    simp only [List.nil_append, List.cons_append, List.append_nil, List.mem_cons, List.not_mem_nil, or_false] at hq
    rcases hq with rfl | rfl <;> simp
  · simp [List.lookup]
  · rw [fe4.1, f1, o2]
  · exact q3.mono s4

/-- Other constants: the assertion of line 249 fires, in every state in which the ports can be made. -/
theorem kuznGalois_invalid {c : Nat} (hc : (Std.kuznechikGalois8Mul c 0) = none) (hg : Good F Z N w) (hh : headNames w = []) :
    kuznGalois F c w = .error .assertFail := by
  obtain ⟨x, w1, e1, g1, s1, p1⟩ := input_does (k := 8) hg (by omega) (by omega) (name := "in") (by decide) (by rw [hh]; simp)
  have hh1 : headNames w1 = [("in", x)] := by rw [headNames_step hg.inv s1, hh]; rfl
  obtain ⟨t1, t2, t3⟩ := uint_ok (k := 8) (by omega) (by omega)
  obtain ⟨o, w2, e2, -⟩ := g1.output t1 t2 (name := "out") (by decide) (by rw [hh1]; simp)
  have h1 : c ≠ 1 := by intro e; subst e; cases hc
  have hb : kuznBody F c x w2 = .error .assertFail := by
    unfold kuznBody
    rw [if_neg h1]
    cases ht : mulTable c with
    | none => rfl
    | some t => rw [mulTable_spec h1 ht] at hc; cases hc
  unfold kuznGalois
  rw [build_bind e1, build_bind e2]
  show StateT.bind _ _ _ = _
  unfold StateT.bind
  rw [hb]
  rfl

end

end Verif.Kernels
