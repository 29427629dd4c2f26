import Verif.Flat.Row
/-
`RowIDCT`.
-/
namespace Verif.Flat
open Verif.Dfcxx Verif.Flow Verif.Kernels

section
variable {F : FloatOps} {C : Cfg} {w : World} {N : List Nat} {m : Nat}

/-- Loops. -/
theorem foldB_does {σ α : Type} {f : σ → α → Build σ} (I : Nat → σ → World → Prop) : ∀ (l : List α) (i : Nat) (s : σ) (w : World), FGood F C N w →
    I i s w →
    (∀ (j : Nat) (hj : j < l.length) (s : σ) (w : World), FGood F C N w → I (i + j) s w →
      FDoes F C (f s l[j]) w (fun _ => N) (fun s' w' => I (i + j + 1) s' w')) →
    FDoes F C (foldB f l s) w (fun _ => N) (fun s' w' => I (i + l.length) s' w')
  | [], i, s, w, hg, h, _ => FDoes.pure hg h
  | a :: l, i, s, w, hg, h, hf => by
    unfold foldB
    refine (hf 0 (by simp) s w hg h).bind fun s1 w1 g1 _ h1 => ?_
    have := foldB_does I l (i + 1) s1 w1 g1 h1 fun j hj s w hg h => by
      have := hf (j + 1) (by simp; omega) s w hg (by rw [show i + (j + 1) = i + 1 + j by omega]; exact h)
      rw [show i + 1 + j + 1 = i + (j + 1) + 1 by omega]
      exact this
    rw [show i + (a :: l).length = i + 1 + l.length by simp; omega]
    exact this

theorem foldl_set (ys : List Nat) (o : Nat) : ∀ (n : Nat) (vs : List Nat), o + n ≤ vs.length →
    ((List.range n).foldl (fun vs j => vs.set (o + j) (ys.getD j 0)) vs).length = vs.length ∧
    ∀ j, ((List.range n).foldl (fun vs j => vs.set (o + j) (ys.getD j 0)) vs).getD j 0 =
      if o ≤ j ∧ j < o + n then ys.getD (j - o) 0 else vs.getD j 0
  | 0, vs, _ => by simp only [List.range_zero, List.foldl_nil, true_and]; intro j; rw [if_neg (by omega)]
  | n + 1, vs, h => by
    obtain ⟨h1, h2⟩ := foldl_set ys o n vs (by omega)
    rw [List.range_succ, List.foldl_append]
    simp only [List.foldl_cons, List.foldl_nil]
    refine ⟨by rw [List.length_set, h1], fun j => ?_⟩
    rw [List.getD_eq_getElem?_getD, List.getElem?_set, h1]
    by_cases hj : o + n = j
    · rw [if_pos hj, if_pos (by omega), if_pos (by omega), show j - o = n by omega]
      rfl
    · rw [if_neg hj, ← List.getD_eq_getElem?_getD, h2 j]
      by_cases hc : o ≤ j ∧ j < o + n
      · rw [if_pos hc, if_pos (by omega)]
      · rw [if_neg hc, if_neg (by omega)]

theorem assignRow_spec {vs ys : List Nat} {i : Nat} (hl : vs.length = 64) (hi : i < 8) : (assignRow vs i ys).length = 64 ∧
    ∀ j, (assignRow vs i ys).getD j 0 = if 8 * i ≤ j ∧ j < 8 * i + 8 then ys.getD (j - 8 * i) 0 else vs.getD j 0 := by
  obtain ⟨h1, h2⟩ := foldl_set ys (8 * i) 8 vs (by omega)
  exact ⟨h1.trans hl, h2⟩

/-- The values of a matrix, from index `a` to index `b`. -/
def MatAt (C : Cfg) (w : World) {k : Nat} (s : Bool) (a b : Nat) (vs : List Nat) (x : Nat → Env → Int → BitVec k) : Prop :=
  ∀ j, a ≤ j → j < b → SVal C w (vs.getD j 0) s 0 (x j)

theorem MatAt.mono {w' : World} {k : Nat} {s : Bool} {a b : Nat} {vs : List Nat} {x : Nat → Env → Int → BitVec k} (h : MatAt C w s a b vs x)
    (hg : FGood F C N w) (hx : FExt w w') : MatAt C w' s a b vs x := fun j h1 h2 => (h j h1 h2).mono hg hx

/-- Row by row. -/
def rowsOf {k : Nat} (m : Nat) (x : Nat → Env → Int → BitVec k) (j : Nat) (inp : Env) (t : Int) : BitVec m :=
  (idctRow (fun i => (x (8 * (j / 8) + i) inp t).signExtend 32) (j % 8)).signExtend m

theorem IdctCfg.rows (hC : IdctCfg C m) (hg : FGood F C N w) {K : IdctConsts} (hK : ConstsAt w m K) {k : Nat} {s : Bool} {vs : List Nat}
    {x : Nat → Env → Int → BitVec k} (hlen : vs.length = 64) (hv : MatAt C w s 0 64 vs x) (hk : C.exempt k = false) (hk0 : 0 < k)
    (hk1 : k + 11 ≤ 32) :
    FDoes F C (rowLoop F (sint m) K vs) w (fun _ => N)
      (fun vs' w' => vs'.length = 64 ∧ ConstsAt w' m K ∧ MatAt C w' true 0 64 vs' (rowsOf m x)) := by
  unfold rowLoop
  refine FDoes.weaken (foldB_does (I := fun i vs w => vs.length = 64 ∧ ConstsAt w m K ∧ MatAt C w true 0 (8 * i) vs (rowsOf m x) ∧
    MatAt C w s (8 * i) 64 vs x) (List.range 8) 0 vs w hg ⟨hlen, hK, fun j h1 h2 => by omega, hv⟩ ?_) ?_
  · intro i hi vs w hg ⟨hlen, hK, h1, h2⟩
    simp only [List.length_range] at hi
    simp only [List.getElem_range, Nat.zero_add] at h1 h2 ⊢
    refine (hC.row hg hK (v := fun j => vs.getD (8 * i + j) 0) (x := fun j => x (8 * i + j)) (fun j hj => h2 _ (by omega) (by omega)) hk hk0 hk1).bind
      fun ys w' g' s' ⟨hy, h3⟩ => ?_
    obtain ⟨a1, a2⟩ := assignRow_spec (ys := ys) hlen hi
    carry hg s'
    refine FDoes.pure g' ⟨a1, hK, fun j b1 b2 => ?_, fun j b1 b2 => ?_⟩
    · rw [a2]
      by_cases hj : 8 * i ≤ j
      · rw [if_pos ⟨hj, by omega⟩]
        have e := (h3 (j - 8 * i) (by omega)).val
        unfold rowsOf
        rw [show j / 8 = i by omega, show j % 8 = j - 8 * i by omega]
        exact e
      · rw [if_neg (by omega)]
        exact h1 j b1 (by omega)
    · rw [a2, if_neg (by omega)]
      exact h2 j (by omega) b2
  · rintro vs' w' - - ⟨h1, h2, h3, -⟩
    exact ⟨h1, h2, h3⟩

end

/-- The input ports of `RowIDCT`: x0, ..., x63. -/
def rowIns : List (String × Nat) := (List.range 64).map fun i => ("x" ++ toString i, 16)

/-- The coefficient at position `i` in tick `t`. -/
def coef16 (port : Env) (i t : Nat) : BitVec 16 := BitVec.ofNat 16 (port ("x" ++ toString i) t)

/-- The output ports of `RowIDCT`: out0, ..., out63; port `j` shows element `j % 8` of the transform of row `j / 8`. -/
def rowOuts : List OutPort := (List.range 64).map fun j =>
  ⟨"out" ++ toString j, 16, true, 0, fun port t => (idctRow (fun i => (coef16 port (8 * (j / 8) + i) t).signExtend 32) (j % 8)).signExtend 16⟩

def rowCfg : Cfg := ⟨true, false, rowIns, fun _ => true, fun _ => false⟩

theorem s16 : TypeOK (sint 16) := ⟨by decide, by decide, by intro e f h; cases h⟩

theorem forall₂_getD {α : Type} {R : α → Nat → Prop} {l : List α} {bs : List Nat} (h : List.Forall₂ R l bs) {j : Nat} (hj : j < l.length) :
    R l[j] (bs.getD j 0) := by
  have hb : j < bs.length := by rw [← h.length_eq]; exact hj
  rw [List.getD_eq_getElem?_getD, List.getElem?_eq_getElem hb, Option.getD_some]
  exact List.Forall₂.get h hj hb

/-- The code of `RowIDCT` establishes its output streams. -/
theorem rowIdct_does {F : FloatOps} : FDoes F rowCfg (rowIdct F) World.init (fun _ => []) (fun _ w => ∀ o ∈ rowOuts, Established rowCfg w o) := by
  have hg := fgood_init F rowCfg
  have hC : IdctCfg rowCfg 16 := ⟨rfl, rfl, rfl, rfl, rfl, by decide, by decide⟩
  unfold rowIdct
  fstep idctConsts_does hC hg with K hK
  refine (forEach_does (R := fun i n w => Str rowCfg w n true 0 (fun inp t => coef16 inp i t.toNat))
    (fun i n w w' g h x => h.mono g x) (List.range 64) _ hg fun i hi w1 g1 _ => g1.input (k := 16) (s := true) s16 rfl rfl
      (List.mem_map.mpr ⟨i, hi, rfl⟩) rfl rfl).bind fun vs w1 g1 s1 h1 => ?_
  carry hg s1
  have hvs : MatAt rowCfg w1 true 0 64 vs (fun i inp t => coef16 inp i t.toNat) := by
    intro j _ hj
    have := (forall₂_getD h1 (j := j) (by simpa using hj)).val
    rwa [List.getElem_range] at this
  have hlen : vs.length = 64 := by rw [← h1.length_eq, List.length_range]
  refine (hC.rows g1 hK hlen hvs rfl (by decide) (by decide)).bind fun vs' w2 g2 s2 ⟨hlen', _, h2⟩ => ?_
  refine (forEach_does (R := fun i _ w => Established rowCfg w ⟨"out" ++ toString i, 16, true, 0, fun port t =>
      (idctRow (fun c => (coef16 port (8 * (i / 8) + c) t).signExtend 32) (i % 8)).signExtend 16⟩)
    (fun i _ w w' g h x => by obtain ⟨n, hn⟩ := h; exact ⟨n, hn.mono g x⟩) (List.range 64) w2 g2 fun i hi w3 g3 s3 => ?_).bind
      fun us w3 g3 s3 h3 => ?_
  · have hv := (h2 i (by omega) (List.mem_range.mp hi)).mono g2 s3
    have hg := g3
    fstep hg.output s16 (fun _ => rfl) with o ho
    fstep hg.connect ho hv rfl rfl with u hu
    refine FDoes.pure (by simpa using hg) ?_
    exact hu.established (by decide) fun inp _ t _ => rfl
  · refine FDoes.pure g3 fun o ho => ?_
    obtain ⟨j, hj, rfl⟩ := List.mem_map.mp ho
    have hj' := List.mem_range.mp hj
    obtain ⟨i, hi1, hi2⟩ := List.mem_iff_getElem.mp hj
    have hb : i < us.length := by rw [← h3.length_eq]; exact hi1
    have := List.Forall₂.get h3 hi1 hb
    simp only [List.get_eq_getElem, hi2] at this
    exact this

/-- Every design a scheduling pass produces for `RowIDCT` transforms, in every cycle, the eight rows at its inputs by the reference
algorithm, if the configuration gives arithmetic at least one stage. -/
theorem rowIdct_realizes {F : FloatOps} : ScheduledRealizes (rowIdct F) true rowIns rowOuts :=
  FDoes.scheduled (C := rowCfg) (F := F) rowIdct_does (.inl fun _ => rfl)

end Verif.Flat
