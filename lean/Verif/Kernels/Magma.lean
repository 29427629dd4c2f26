import Verif.Kernels.Rules
/-
What `MagmaEncoder` and `MagmaDecoder` build.
-/
namespace Verif.Kernels
open Verif.Dfcxx Verif.Flow

section
variable {F : FloatOps} {Z : String → Prop} {N : List Nat} {w : World}

theorem magmaTables_ok : ∀ t ∈ Std.magmaTables, t.length = 16 ∧ ∀ v ∈ t, v < 16 := by decide +kernel

theorem magmaTables_len : Std.magmaTables.length = 8 := by decide +kernel

theorem permut_does (hg : Good F Z N w) {i val : Nat} (hi : i < 8) {x : (Nat → Pat) → BitVec 4} (hx : Str Z w val x) :
    Does F Z N (permut F i val) w (fun n w' => Str Z w' n (fun ρ => Std.permut i (x ρ))) := by
  unfold permut
  refine (consts_does hg (k := 4) (by omega) (by omega) (List.range 16)).bind fun cs w1 g1 s1 q1 => ?_
  have hlt : i < Std.magmaTables.length := by rw [magmaTables_len]; exact hi
  have ht : Std.magmaTables[i]? = some Std.magmaTables[i] := List.getElem?_eq_getElem hlt
  obtain ⟨tl, tv⟩ := magmaTables_ok _ (List.getElem_mem hlt)
  have hc : ∀ v ∈ Std.magmaTables[i], Cst w1 (cs.getD v 0) (BitVec.ofNat 4 v) := by
    intro v hv
    have hv' : v < (List.range 16).length := by rw [List.length_range]; exact tv v hv
    have := forall₂_getD q1 hv'
    rwa [List.getElem_range] at this
  simp only [Std.permut, ht]
  refine (g1.mux (hx.mono s1) (ys := Std.magmaTables[i].map fun v _ => BitVec.ofNat 4 v) ?_ (by rw [List.length_map, tl]; decide)
    (.inr ?_)).weaken fun n w2 _ _ q => q.congr fun ρ _ => ?_
  · have key : ∀ t : List Nat, (∀ v ∈ t, Cst w1 (cs.getD v 0) (BitVec.ofNat 4 v)) →
        List.Forall₂ (fun a (y : (Nat → Pat) → BitVec 4) => Val w1 a y) (t.map fun j => cs.getD j 0) (t.map fun v _ => BitVec.ofNat 4 v) := by
      intro t
      induction t with
      | nil => intro _; exact .nil
      | cons v t ih => intro h; exact .cons (h v (by simp)).val (ih fun u hu => h u (by simp [hu]))
    exact key _ hc
  · intro a ha
    obtain ⟨v, hv, rfl⟩ := List.mem_map.mp ha
    exact (hc v hv).const
  · unfold Std.muxC
    rw [List.map_map]
    rfl

theorem parts_does (hg : Good F Z N w) {sum : Nat} {x : (Nat → Pat) → BitVec 32} (hx : Str Z w sum x) :
    Does F Z N (forEach (fun i => call1 F (.bits sum (i + 3) i)) [0, 4, 8, 12, 16, 20, 24, 28]) w
      (fun ns w' => ∀ j, j < 8 → Str Z w' (ns.getD j 0) (fun ρ => (x ρ).extractLsb' (4 * j) 4)) := by
  refine (forEach_does (R := fun i n w' => Str Z w' n (fun ρ => (x ρ).extractLsb' i 4)) (fun _ _ _ _ h st => h.mono st) _ w hg
    fun i hi w1 g1 s1 => ?_).weaken fun ns w1 _ _ q j hj => ?_
  · have hi' : i ≤ 28 := by simp at hi; omega
    have h1 := hx.mono s1
    exact g1.bits h1.val h1.here (by omega) (by omega) (by omega)
  · have := forall₂_getD q (i := j) (by simpa using hj)
    have e : ([0, 4, 8, 12, 16, 20, 24, 28] : List Nat)[j]'(by simpa using hj) = 4 * j := by
      interval_cases j <;> rfl
    rwa [e] at this

theorem round_does (hg : Good F Z N w) {left right key : Nat} {l r k : (Nat → Pat) → BitVec 32} (hl : Str Z w left l) (hr : Str Z w right r)
    (hk : Str Z w key k) :
    Does F Z N (round F left right key) w (fun s w' => Str Z w' s.1 (fun ρ => (Std.magmaRound (l ρ) (r ρ) (k ρ)).1) ∧
      Str Z w' s.2 (fun ρ => (Std.magmaRound (l ρ) (r ρ) (k ρ)).2)) := by
  obtain ⟨u1, u2, u3⟩ := uint_ok (k := 32) (by omega) (by omega)
  unfold round
  refine (hg.cast hr.val hr.here u1 u2 u3).bind fun r' w1 g1 s1 q1 => ?_
  have hk1 := hk.mono s1
  refine (g1.cast hk1.val hk1.here u1 u2 u3).bind fun k' w2 g2 s2 q2 => ?_
  refine (g2.add (q1.mono s2) q2.val).bind fun sum w3 g3 s3 q3 => ?_
  refine (parts_does g3 q3).bind fun parts w4 g4 s4 q4 => ?_
  refine (permut_does g4 (i := 7) (by omega) (q4 7 (by omega))).bind fun sub w5 g5 s5 q5 => ?_
  refine (catLoop_does (m := 4) (v := fun i ρ => Std.permut i ((r ρ + k ρ).extractLsb' (4 * i) 4)) [6, 5, 4, 3, 2, 1, 0] sub
    ⟨4, _⟩ w5 g5 q5 (show 4 + 4 * 7 < 65536 by omega) fun i hi w6 g6 s6 => ?_).bind fun sub' w6 g6 s6 q6 => ?_
  · have hi' : i < 8 := by simp at hi; omega
    exact permut_does g6 hi' (((q4 i hi').mono s5).mono s6)
  have q6' : Str Z w6 sub' (fun ρ => (Std.permut 7 ((r ρ + k ρ).extractLsb' (4 * 7) 4) ++ Std.permut 6 ((r ρ + k ρ).extractLsb' (4 * 6) 4) ++
      Std.permut 5 ((r ρ + k ρ).extractLsb' (4 * 5) 4) ++ Std.permut 4 ((r ρ + k ρ).extractLsb' (4 * 4) 4) ++
      Std.permut 3 ((r ρ + k ρ).extractLsb' (4 * 3) 4) ++ Std.permut 2 ((r ρ + k ρ).extractLsb' (4 * 2) 4) ++
      Std.permut 1 ((r ρ + k ρ).extractLsb' (4 * 1) 4) ++ Std.permut 0 ((r ρ + k ρ).extractLsb' (4 * 0) 4) : BitVec 32)) := q6
  refine (g6.bits q6'.val q6'.here (hi := 20) (lo := 0) (m := 21) rfl (by omega) (by omega)).bind fun a w7 g7 s7 q7 => ?_
  have q7' := q6'.mono s7
  refine (g7.bits q7'.val q7'.here (hi := 31) (lo := 21) (m := 11) rfl (by omega) (by omega)).bind fun b w8 g8 s8 q8 => ?_
  refine (g8.cat (q7.mono s8).val q8.val (q7.mono s8).here (by omega)).bind fun sh w9 g9 s9 q9 => ?_
  have st9 := (((((((s1.trans s2).trans s3).trans s4).trans s5).trans s6).trans s7).trans s8).trans s9
  refine (g9.xor (hl.mono st9).val q9.val (.inr (q9.notConst g9))).bind fun x w10 g10 s10 q10 => ?_
  exact Does.pure g10 ⟨(hr.mono st9).mono s10, q10⟩

theorem keys_does (hg : Good F Z N w) {key : Nat} {x : (Nat → Pat) → BitVec 256} (hx : Str Z w key x) :
    Does F Z N (forEach (fun i => call1 F (.bits key i (i - 31))) [255, 223, 191, 159, 127, 95, 63, 31]) w
      (fun ns w' => ∀ j, j < 8 → Str Z w' (ns.getD j 0) (fun ρ => Std.magmaKey (x ρ) j)) := by
  refine (forEach_does (R := fun i n w' => Str Z w' n (fun ρ => (x ρ).extractLsb' (i - 31) 32)) (fun _ _ _ _ h st => h.mono st) _ w hg
    fun i hi w1 g1 s1 => ?_).weaken fun ns w1 _ _ q j hj => ?_
  · have hi' : 31 ≤ i ∧ i < 256 := by simp at hi; omega
    have h1 := hx.mono s1
    exact g1.bits h1.val h1.here (by omega) (by omega) (by omega)
  · have := forall₂_getD q (i := j) (by simpa using hj)
    have e : ([255, 223, 191, 159, 127, 95, 63, 31] : List Nat)[j]'(by simpa using hj) - 31 = 224 - 32 * j := by
      interval_cases j <;> rfl
    rwa [e] at this

theorem magmaBody_does (hg : Good F Z N w) {block key : Nat} {b : (Nat → Pat) → BitVec 64} {k : (Nat → Pat) → BitVec 256}
    (hb : Str Z w block b) (hk : Str Z w key k) {inds : List Nat} (hi : ∀ i ∈ inds, i < 8) :
    Does F Z N (magmaBody F inds block key) w (fun s w' =>
      Str Z w' s.1 (fun ρ => (Std.magmaRounds (k ρ) ((b ρ).extractLsb 63 32, (b ρ).extractLsb 31 0) inds).1) ∧
      Str Z w' s.2 (fun ρ => (Std.magmaRounds (k ρ) ((b ρ).extractLsb 63 32, (b ρ).extractLsb 31 0) inds).2)) := by
  unfold magmaBody
  refine (hg.bits hb.val hb.here (hi := 63) (lo := 32) (m := 32) rfl (by omega) (by omega)).bind fun f w1 g1 s1 q1 => ?_
  have hb1 := hb.mono s1
  refine (g1.bits hb1.val hb1.here (hi := 31) (lo := 0) (m := 32) rfl (by omega) (by omega)).bind fun s w2 g2 s2 q2 => ?_
  refine (keys_does g2 ((hk.mono s1).mono s2)).bind fun keys w3 g3 s3 q3 => ?_
  exact foldB_does (R := fun (s : Nat × Nat) (t : (Nat → Pat) → BitVec 32 × BitVec 32) w => Str Z w s.1 (fun ρ => (t ρ).1) ∧ Str Z w s.2 (fun ρ => (t ρ).2))
    (g := fun ρ s i => Std.magmaRound s.1 s.2 (Std.magmaKey (k ρ) i)) inds (f, s)
    (fun ρ => ((b ρ).extractLsb 63 32, (b ρ).extractLsb 31 0)) w3 g3 ⟨(q1.mono s2).mono s3, q2.mono s3⟩
    fun i hm s t w4 g4 s4 ⟨r1, r2⟩ => round_does g4 r1 r2 ((q3 i (hi i hm)).mono s4)

theorem magmaRounds_append (key : BitVec 256) (s : BitVec 32 × BitVec 32) (a b : List Nat) :
    Std.magmaRounds key s (a ++ b) = Std.magmaRounds key (Std.magmaRounds key s a) b := by
  unfold Std.magmaRounds; rw [List.foldl_append]

/-- `MagmaEncoder` computes the cipher. -/
theorem magmaEncoder_contract (hz1 : ¬ Z "block") (hz2 : ¬ Z "key") :
    Contract F Z (fun _ => True) (magmaEncoder F) [("block", 64), ("key", 256)] "encoded" 64
      (fun l => Std.magmaEncode (arg 256 l 1) (arg 64 l 0)) :=
  two_in_contract (f := fun b k => Std.magmaEncode k b)
    (fun x y r w => Str Z w r.1 (fun ρ => (Std.magmaRounds (BitVec.ofNat 256 (ρ y).2) ((BitVec.ofNat 64 (ρ x).2).extractLsb 63 32,
        (BitVec.ofNat 64 (ρ x).2).extractLsb 31 0) (Std.up ++ Std.up ++ Std.up ++ Std.down)).1) ∧
      Str Z w r.2 (fun ρ => (Std.magmaRounds (BitVec.ofNat 256 (ρ y).2) ((BitVec.ofNat 64 (ρ x).2).extractLsb 63 32,
        (BitVec.ofNat 64 (ρ x).2).extractLsb 31 0) (Std.up ++ Std.up ++ Std.up ++ Std.down)).2))
    (by decide) (by decide) (by decide) (by decide) (by decide) (by decide) (by decide) (fun _ _ _ _ h => h)
    (fun _ _ _ _ _ _ st h => ⟨h.1.mono st, h.2.mono st⟩)
    (fun N w x y g _ p1 p2 => magmaBody_does g (p1.str hz1) (p2.str hz2) (by decide))
    (fun N w x y r g _ q => (g.cat q.2.val q.1.val q.2.here (by omega)).weaken fun n w1 _ _ h => h.congr fun ρ _ => by
      rw [magmaRounds_append]
      rfl)

/-- `MagmaDecoder` computes the inverse cipher. -/
theorem magmaDecoder_contract (hz1 : ¬ Z "encoded") (hz2 : ¬ Z "key") :
    Contract F Z (fun _ => True) (magmaDecoder F) [("encoded", 64), ("key", 256)] "block" 64
      (fun l => Std.magmaDecode (arg 256 l 1) (arg 64 l 0)) :=
  two_in_contract (f := fun b k => Std.magmaDecode k b)
    (fun x y r w => Str Z w r.1 (fun ρ => (Std.magmaRounds (BitVec.ofNat 256 (ρ y).2) ((BitVec.ofNat 64 (ρ x).2).extractLsb 63 32,
        (BitVec.ofNat 64 (ρ x).2).extractLsb 31 0) (Std.up ++ (Std.down ++ Std.down ++ Std.down))).1) ∧
      Str Z w r.2 (fun ρ => (Std.magmaRounds (BitVec.ofNat 256 (ρ y).2) ((BitVec.ofNat 64 (ρ x).2).extractLsb 63 32,
        (BitVec.ofNat 64 (ρ x).2).extractLsb 31 0) (Std.up ++ (Std.down ++ Std.down ++ Std.down))).2))
    (by decide) (by decide) (by decide) (by decide) (by decide) (by decide) (by decide) (fun _ _ _ _ h => h)
    (fun _ _ _ _ _ _ st h => ⟨h.1.mono st, h.2.mono st⟩)
    (fun N w x y g _ p1 p2 => magmaBody_does g (p1.str hz1) (p2.str hz2) (by decide))
    (fun N w x y r g _ q => (g.cat q.2.val q.1.val q.2.here (by omega)).weaken fun n w1 _ _ h => h.congr fun ρ _ => by
      rw [magmaRounds_append]
      rfl)

end

end Verif.Kernels
