import Verif.Flow.Step
/-
Cells that are FIRRTL primitives, and all cells together.
-/
namespace Verif.Flow
open Verif.Dfcxx Verif.Hw Verif.Sched

section
variable {V : Nat → NodeV} {order : List Nat} {lat : Nat → Int} {X : Prog} {blk : List Nat} {port : String → Nat → Nat}
  {oob : FVal → List FVal → FVal}

theorem bitPrim_ok {f : Nat → Nat → Nat} {ta tb ty : DFType} {x y : FVal} (hx : Fits ta x) (hy : Fits tb y)
    (ht : unsignedTy ty) (h1 : unsignedTy ta) (h2 : unsignedTy tb) (hw : width ty = max (width ta) (width tb))
    (hf : ∀ w a b, a < 2 ^ w → b < 2 ^ w → f a b < 2 ^ w) :
    ∃ z, bitPrim f (convertType (hwTy ty)) x y = some z ∧ Fits ty z ∧ z.n = f x.n y.n := by
  unfold unsignedTy at ht h1 h2
  have e : convertType (hwTy ty) = .uint (max x.w y.w) :=
    fty_ext (by rw [fty_width, hw, hx.w, hy.w]; rfl) (by rw [fty_signed, ht]; rfl)
  refine ⟨⟨false, max x.w y.w, f x.n y.n⟩, ?_, ?_, rfl⟩
  · simp [bitPrim, e, hx.sgn, hy.sgn, h1, h2]
  · refine fits_mk (by simp [ht]) (by simp [hw, hx.w, hy.w]) ?_
    rw [hw]
    exact hf _ _ _ (Nat.lt_of_lt_of_le hx.2 (Nat.pow_le_pow_right (by omega) (Nat.le_max_left _ _)))
      (Nat.lt_of_lt_of_le hy.2 (Nat.pow_le_pow_right (by omega) (Nat.le_max_right _ _)))

/-- Two-operand nodes without a unit. -/
theorem Ctx.two (C : Ctx V order lat X blk port oob) {n a b : Nat} (hn : n ∈ order)
    (hop : (V n).op ∉ [.IN, .CONST, .OUT, .OFFSET, .MUX]) (hsrc : (V n).srcs = [a, b]) (σ : Nat → Nat → FVal)
    (hσ : Operands V order X σ (order.idxOf n)) : ∃ u w, X.defn (order.idxOf n) = .node [u, w] ∧
      (∀ t, Fits (V a).ty (σ u t)) ∧ ∀ t, Fits (V b).ty (σ w t) := by
  obtain ⟨args, hd, hargs⟩ := C.node hn hop
  rw [hsrc] at hargs
  obtain ⟨u, w, rfl, hu, hw⟩ := map_two hargs
  have hfu := hσ u (by rw [hd]; simp [Def.refs])
  have hfw := hσ w (by rw [hd]; simp [Def.refs])
  simp only [hu] at hfu
  simp only [hw] at hfw
  exact ⟨u, w, hd, hfu, hfw⟩

/-- One-operand nodes without a unit. -/
theorem Ctx.one (C : Ctx V order lat X blk port oob) {n a : Nat} (hn : n ∈ order)
    (hop : (V n).op ∉ [.IN, .CONST, .OUT, .OFFSET, .MUX]) (hsrc : (V n).srcs = [a]) (σ : Nat → Nat → FVal)
    (hσ : Operands V order X σ (order.idxOf n)) : ∃ u, X.defn (order.idxOf n) = .node [u] ∧ ∀ t, Fits (V a).ty (σ u t) := by
  obtain ⟨args, hd, hargs⟩ := C.node hn hop
  rw [hsrc] at hargs
  obtain ⟨u, rfl, hu⟩ := map_one hargs
  have hfu := hσ u (by rw [hd]; simp [Def.refs])
  simp only [hu] at hfu
  exact ⟨u, hd, hfu⟩

theorem convTy_ty (v : NodeV) : (convTy v).ty = v.ty := by unfold convTy; cases v.kind <;> rfl

theorem Ctx.step_bitwise (C : Ctx V order lat X blk port oob) {n : Nat} (hn : n ∈ order) (ho : (V n).op ∈ [.AND, .OR, .XOR])
    (reg : Nat → Nat) (σ : Nat → Nat → FVal) (hσ : Operands V order X σ (order.idxOf n)) (t : Nat) :
    StepOK V order lat X blk port oob reg σ (order.idxOf n) t := by
  obtain ⟨a, b, hsrc⟩ := (C.compl n hn).binary (by simp at ho ⊢; tauto)
  have hop : (V n).op ∉ [.IN, .CONST, .OUT, .OFFSET, .MUX] := by
    simp at ho; rcases ho with h | h | h <;> simp [h]
  have hnu : ¬ isUnitOp (V n).op := by
    simp at ho; rcases ho with h | h | h <;> simp [h, isUnitOp]
  obtain ⟨u, w, hd, hfu, hfw⟩ := C.two hn hop hsrc σ hσ
  have hopi := ops_at V hn
  have hsup : unsignedTy (V n).ty ∧ unsignedTy (V a).ty ∧ unsignedTy (V b).ty ∧
      width (V n).ty = max (width (V a).ty) (width (V b).ty) := by
    have h := (C.supp n hn).2
    simp at ho
    rcases ho with h' | h' | h' <;> (rw [h'] at h; exact ⟨h.1, h.2 a b hsrc⟩)
  obtain ⟨s1, s2, s3, s4⟩ := hsup
  simp at ho
  rcases ho with h | h | h
  · obtain ⟨z, g1, g2, g3⟩ := bitPrim_ok (f := (· &&& ·)) (hfu t) (hfw t) s1 s2 s3 s4 (fun w a b h _ => Nat.lt_of_le_of_lt Nat.and_le_left h)
    refine C.step_prim hn hnu hop hd reg σ t z ?_ g2 ?_
    · simp only [circuitOf, cellOf, hd, hopi, opInfo, exactOp, h, binaryKind, convTy_ty, cellOut]; exact g1
    · simp [h, hsrc, hwMeaning, g3]
  · obtain ⟨z, g1, g2, g3⟩ := bitPrim_ok (f := (· ||| ·)) (hfu t) (hfw t) s1 s2 s3 s4 (fun w a b h h' => Nat.or_lt_two_pow h h')
    refine C.step_prim hn hnu hop hd reg σ t z ?_ g2 ?_
    · simp only [circuitOf, cellOf, hd, hopi, opInfo, exactOp, h, binaryKind, convTy_ty, cellOut]; exact g1
    · simp [h, hsrc, hwMeaning, g3]
  · obtain ⟨z, g1, g2, g3⟩ := bitPrim_ok (f := (· ^^^ ·)) (hfu t) (hfw t) s1 s2 s3 s4 (fun w a b h h' => Nat.xor_lt_two_pow h h')
    refine C.step_prim hn hnu hop hd reg σ t z ?_ g2 ?_
    · simp only [circuitOf, cellOf, hd, hopi, opInfo, exactOp, h, binaryKind, convTy_ty, cellOut]; exact g1
    · simp [h, hsrc, hwMeaning, g3]

theorem Ctx.step_not (C : Ctx V order lat X blk port oob) {n : Nat} (hn : n ∈ order) (ho : (V n).op = .NOT)
    (reg : Nat → Nat) (σ : Nat → Nat → FVal) (hσ : Operands V order X σ (order.idxOf n)) (t : Nat) :
    StepOK V order lat X blk port oob reg σ (order.idxOf n) t := by
  obtain ⟨a, hsrc⟩ := (C.compl n hn).unary (by simp [ho])
  obtain ⟨u, hd, hfu⟩ := C.one hn (by simp [ho]) hsrc σ hσ
  have hsup := (C.supp n hn).2
  rw [ho] at hsup
  obtain ⟨s1, -, s2⟩ := hsup
  have s3 := (s2 a (by simp [hsrc])).1
  unfold unsignedTy at s1
  have hopi := ops_at V hn
  have e : convertType (hwTy (V n).ty) = .uint (σ u t).w :=
    fty_ext (by rw [fty_width, (hfu t).w, s3]; rfl) (by rw [fty_signed, s1]; rfl)
  refine C.step_prim hn (by simp [ho, isUnitOp]) (by simp [ho]) hd reg σ t
    ⟨false, (σ u t).w, 2 ^ (σ u t).w - 1 - (σ u t).n⟩ ?_ ?_ ?_
  · simp [circuitOf, cellOf, hd, hopi, opInfo, exactOp, ho, binaryKind, unaryKind, cellOut, convTy_ty, hsrc, e]
  · refine fits_mk (by simp [s1]) (by simp [(hfu t).w, s3]) ?_
    simp only [(hfu t).w, s3]
    have : 0 < 2 ^ width (V n).ty := Nat.pos_of_ne_zero (by positivity)
    omega
  · simp [ho, hsrc, hwMeaning, (hfu t).w, s3]

theorem number_lt {ty : DFType} {n : Nat} (h : unsignedTy ty) : number ty n = n := by
  unfold unsignedTy at h; simp [number, h]

theorem pattern_nat (ty : DFType) (n : Nat) : pattern ty (n : Int) = n % 2 ^ width ty := by
  unfold pattern; norm_cast

theorem SameHw.number {a b : DFType} (h : SameHw a b) (n : Nat) : number a n = number b n := by
  simp [Flow.number, h.1, h.2]

theorem shl_bits_lt {w n : Nat} (h2 : 2 ≤ w) (hn : n < 2 ^ w) (k : Nat) :
    n / 2 ^ (w - 1) * 2 ^ (w - 1) + n * 2 ^ k % 2 ^ (w - 1) < 2 ^ w := by
  have hp : (2 : Nat) ^ w = 2 * 2 ^ (w - 1) := by rw [← Nat.pow_succ']; congr 1; omega
  have hpp : 0 < 2 ^ (w - 1) := Nat.pos_of_ne_zero (by positivity)
  have h1 : n / 2 ^ (w - 1) ≤ 1 := by
    have : n / 2 ^ (w - 1) < 2 := by rw [Nat.div_lt_iff_lt_mul hpp]; omega
    omega
  have h3 : n * 2 ^ k % 2 ^ (w - 1) < 2 ^ (w - 1) := Nat.mod_lt _ hpp
  have h4 : n / 2 ^ (w - 1) * 2 ^ (w - 1) ≤ 1 * 2 ^ (w - 1) := Nat.mul_le_mul_right _ h1
  omega

theorem Ctx.step_shl (C : Ctx V order lat X blk port oob) {n : Nat} (hn : n ∈ order) (ho : (V n).op = .SHL)
    (reg : Nat → Nat) (σ : Nat → Nat → FVal) (hσ : Operands V order X σ (order.idxOf n)) (t : Nat) :
    StepOK V order lat X blk port oob reg σ (order.idxOf n) t := by
  obtain ⟨a, hsrc⟩ := (C.compl n hn).unary (by simp [ho])
  obtain ⟨k, hk⟩ := (C.compl n hn).shift (by simp [ho])
  obtain ⟨u, hd, hfu⟩ := C.one hn (by simp [ho]) hsrc σ hσ
  obtain ⟨⟨hw0, -⟩, hsup⟩ := C.supp n hn
  rw [ho] at hsup
  obtain ⟨s1, s2⟩ := hsup
  have s2 := s2 a (by simp [hsrc])
  have hopi := ops_at V hn
  have hfu := hfu t
  have hfu := hfu.congr s2
  have hcell : ∀ z, lowerShl (σ u t) k = some z →
      cellOut port oob reg (circuitOf (opsOf (block V order)) X lat blk (order.idxOf n)) σ t = some z := by
    intro z hz
    simp only [circuitOf, cellOf, hd, hopi, opInfo, exactOp, ho, binaryKind, unaryKind, hk, cellOut, convTy_ty, hsrc]
    exact hz
  unfold unsignedTy at s1
  cases hs : (V n).ty.isSigned
  · have hsh := shl_unsigned (σ u t) (by rw [hfu.sgn]; exact hs) (by rw [hfu.w]; exact hw0) k
    refine C.step_prim hn (by simp [ho, isUnitOp]) (by simp [ho]) hd reg σ t
      ⟨false, (σ u t).w, (σ u t).n * 2 ^ k % 2 ^ (σ u t).w⟩ (hcell _ hsh) ?_ ?_
    · exact fits_mk (by simp; exact hs) (by simp [hfu.w]) (by
        simp only [hfu.w]; exact Nat.mod_lt _ (Nat.pos_of_ne_zero (by positivity)))
    · simp [ho, hsrc, hk, hwMeaning, hwShl, hs, hfu.w]
  · have h2 : 2 ≤ width (V n).ty := by
      rcases s1 with h | h
      · rw [hs] at h; cases h
      · exact h
    have hsh := shl_signed_bits (σ u t) (by rw [hfu.sgn]; exact hs) (by rw [hfu.w]; exact h2) (by rw [hfu.w]; exact hfu.2) k
    refine C.step_prim hn (by simp [ho, isUnitOp]) (by simp [ho]) hd reg σ t _ (hcell _ hsh) ?_ ?_
    · refine fits_mk (by simp; exact hs) (by simp [hfu.w]) ?_
      simp only [hfu.w]
      exact shl_bits_lt h2 hfu.2 k
    · simp [ho, hsrc, hk, hwMeaning, hwShl, hs, hfu.w]

theorem Ctx.step_shr (C : Ctx V order lat X blk port oob) {n : Nat} (hn : n ∈ order) (ho : (V n).op = .SHR)
    (reg : Nat → Nat) (σ : Nat → Nat → FVal) (hσ : Operands V order X σ (order.idxOf n)) (t : Nat) :
    StepOK V order lat X blk port oob reg σ (order.idxOf n) t := by
  obtain ⟨a, hsrc⟩ := (C.compl n hn).unary (by simp [ho])
  obtain ⟨k, hk⟩ := (C.compl n hn).shift (by simp [ho])
  obtain ⟨u, hd, hfu⟩ := C.one hn (by simp [ho]) hsrc σ hσ
  obtain ⟨⟨hw0, -⟩, hsup⟩ := C.supp n hn
  rw [ho] at hsup
  have s2 := hsup a (by simp [hsrc])
  have hopi := ops_at V hn
  have hfu := hfu t
  have hfu := hfu.congr s2
  have hcell : cellOut port oob reg (circuitOf (opsOf (block V order)) X lat blk (order.idxOf n)) σ t =
      some (lowerShr (σ u t) k) := by
    simp only [circuitOf, cellOf, hd, hopi, opInfo, exactOp, ho, binaryKind, unaryKind, hk, cellOut, convTy_ty, hsrc]
    rfl
  have hnum : (σ u t).num = number (V n).ty (σ u t).n := by
    simp [FVal.num, number, hfu.sgn, hfu.w]
  refine C.step_prim hn (by simp [ho, isUnitOp]) (by simp [ho]) hd reg σ t _ hcell ?_ ?_
  · cases hs : (V n).ty.isSigned
    · rw [shr_unsigned (σ u t) (by rw [hfu.sgn, hs])]
      exact fits_mk hs.symm hfu.w (Nat.lt_of_le_of_lt (Nat.div_le_self _ _) hfu.2)
    · obtain ⟨g1, g2, g3, g4⟩ := shr_signed (σ u t) (by rw [hfu.sgn, hs]) (by rw [hfu.w]; exact hw0) (by rw [hfu.w]; exact hfu.2) k
      exact fits_mk (by rw [g1, hs]) (by rw [g2, hfu.w]) (by rw [← hfu.w]; exact g3)
  · simp only [ho, hsrc, hk, hwMeaning, List.map_cons, List.map_nil, List.zip_cons_cons, List.zip_nil_right, s2.number]
    congr 1
    cases hs : (V n).ty.isSigned
    · rw [shr_unsigned (σ u t) (by rw [hfu.sgn, hs]), number_lt hs]
      have : (((σ u t).n : Int) / 2 ^ k) = (((σ u t).n / 2 ^ k : Nat) : Int) := by norm_cast
      rw [this, pattern_nat, Nat.mod_eq_of_lt (Nat.lt_of_le_of_lt (Nat.div_le_self _ _) hfu.2)]
    · obtain ⟨g1, g2, g3, g4⟩ := shr_signed (σ u t) (by rw [hfu.sgn, hs]) (by rw [hfu.w]; exact hw0) (by rw [hfu.w]; exact hfu.2) k
      rw [← hnum, ← g4]
      unfold pattern FVal.num
      rw [g1, g2, hfu.w]
      rw [hfu.w] at g3
      have hp : (0 : Int) < 2 ^ width (V n).ty := by positivity
      by_cases hc : 2 ^ width (V n).ty ≤ 2 * (lowerShr (σ u t) k).n
      · rw [if_pos ⟨rfl, hc⟩]
        have : ((lowerShr (σ u t) k).n : Int) - 2 ^ width (V n).ty = (lowerShr (σ u t) k).n + 2 ^ width (V n).ty * (-1) := by ring
        rw [this, Int.add_mul_emod_self_left, Int.emod_eq_of_lt (by omega) (by exact_mod_cast g3)]
        simp
      · rw [if_neg (fun h => hc h.2), Int.emod_eq_of_lt (by omega) (by exact_mod_cast g3)]
        simp

theorem Ctx.step_bits (C : Ctx V order lat X blk port oob) {n : Nat} (hn : n ∈ order) (ho : (V n).op = .BITS)
    (reg : Nat → Nat) (σ : Nat → Nat → FVal) (hσ : Operands V order X σ (order.idxOf n)) (t : Nat) :
    StepOK V order lat X blk port oob reg σ (order.idxOf n) t := by
  obtain ⟨a, hsrc⟩ := (C.compl n hn).unary (by simp [ho])
  obtain ⟨l, r, hk⟩ := (C.compl n hn).bits ho
  obtain ⟨u, hd, hfu⟩ := C.one hn (by simp [ho]) hsrc σ hσ
  obtain ⟨-, hsup⟩ := C.supp n hn
  rw [ho] at hsup
  obtain ⟨s1, s2, s3, s4⟩ := hsup l r hk
  have s4 := s4 a (by simp [hsrc])
  have hopi := ops_at V hn
  have hfu := hfu t
  refine C.step_prim hn (by simp [ho, isUnitOp]) (by simp [ho]) hd reg σ t
    ⟨false, l - r + 1, (σ u t).n / 2 ^ r % 2 ^ (l - r + 1)⟩ ?_ ?_ ?_
  · have h1 : ¬ l < r := by omega
    have h2 : l < (σ u t).w := by rw [hfu.w]; exact s4
    have h3 : ¬ ((l : Int) < 0 ∨ (r : Int) < 0) := by omega
    simp only [circuitOf, cellOf, hd, hopi, opInfo, exactOp, ho, binaryKind, unaryKind, hk, cellOut, convTy_ty, hsrc]
    rw [if_neg h3]
    simp [lowerBits, h1, FVal.bits, s1, h2]
  · exact fits_mk s2.symm s3.symm (by rw [s3]; exact Nat.mod_lt _ (Nat.pos_of_ne_zero (by positivity)))
  · simp [ho, hsrc, hk, hwMeaning]

theorem Ctx.step_cat (C : Ctx V order lat X blk port oob) {n : Nat} (hn : n ∈ order) (ho : (V n).op = .CAT)
    (reg : Nat → Nat) (σ : Nat → Nat → FVal) (hσ : Operands V order X σ (order.idxOf n)) (t : Nat) :
    StepOK V order lat X blk port oob reg σ (order.idxOf n) t := by
  obtain ⟨a, b, hsrc⟩ := (C.compl n hn).binary (by simp [ho])
  obtain ⟨u, w, hd, hfu, hfw⟩ := C.two hn (by simp [ho]) hsrc σ hσ
  obtain ⟨-, hsup⟩ := C.supp n hn
  rw [ho] at hsup
  obtain ⟨s1, s2⟩ := hsup
  obtain ⟨s2, s3⟩ := s2 a b hsrc
  have hopi := ops_at V hn
  have hfu := hfu t
  have hfw := hfw t
  refine C.step_prim hn (by simp [ho, isUnitOp]) (by simp [ho]) hd reg σ t
    ⟨false, (σ u t).w + (σ w t).w, (σ u t).n * 2 ^ (σ w t).w + (σ w t).n⟩ ?_ ?_ ?_
  · have h1 : (σ u t).sgn = (σ w t).sgn := by rw [hfu.sgn, hfw.sgn]; exact s2
    simp [circuitOf, cellOf, hd, hopi, opInfo, exactOp, ho, binaryKind, cellOut, lowerCat, FVal.cat, h1]
  · refine fits_mk s1.symm (by simp [hfu.w, hfw.w, s3]) ?_
    simp only [hfw.w, s3, Nat.pow_add]
    have h1 := hfu.2
    have h2 := hfw.2
    have h : ((σ u t).n + 1) * 2 ^ width (V b).ty ≤ 2 ^ width (V a).ty * 2 ^ width (V b).ty := Nat.mul_le_mul_right _ h1
    rw [Nat.succ_mul] at h
    omega
  · simp [ho, hsrc, hwMeaning, hfw.w]

theorem map_cons' {f : Nat → DFType} {l : List Nat} {a : DFType} {as : List DFType} (h : l.map f = a :: as) :
    ∃ u us, l = u :: us ∧ f u = a ∧ us.map f = as := by
  cases l with
  | nil => simp at h
  | cons u us => simp at h; exact ⟨u, us, rfl, h.1, h.2⟩

theorem Ctx.step_mux (C : Ctx V order lat X blk port oob) {n : Nat} (hn : n ∈ order) (ho : (V n).op = .MUX)
    (reg : Nat → Nat) (σ : Nat → Nat → FVal) (hσ : Operands V order X σ (order.idxOf n)) (t : Nat) :
    StepOK V order lat X blk port oob reg σ (order.idxOf n) t := by
  obtain ⟨hdt, c, alts, hsrc⟩ := (C.compl n hn).mux ho
  obtain ⟨-, hsup⟩ := C.supp n hn
  rw [ho] at hsup
  obtain ⟨-, hne, s2⟩ := hsup c alts hsrc
  have hopi := ops_at V hn
  have hd := progOf_defn V hn (C.compl n hn)
  have hlt : order.idxOf n < (progOf (block V order)).size := by rw [progOf_size]; exact List.idxOf_lt_length_iff.mpr hn
  have hdi := C.inv.defs _ hlt
  rw [hd] at hdi
  simp only [defOf, ho, hsrc, DefInv] at hdi
  obtain ⟨args, hd, hargs⟩ := hdi
  rw [List.map_cons] at hargs
  obtain ⟨u, us, rfl, hu, hus⟩ := map_cons' hargs
  have hco := (srcs_in_order C.topo hn (s := c) (by simp [hsrc])).1
  rw [opTy_at V hco (C.compl c hco)] at hu
  have hust : ∀ w ∈ us, SameHw (valTy (opTy (opsOf (block V order))) X w) (V n).ty := by
    intro w hw
    have hm : valTy (opTy (opsOf (block V order))) X w ∈ us.map (valTy (opTy (opsOf (block V order))) X) := List.mem_map_of_mem hw
    rw [hus] at hm
    simp only [List.mem_map, List.mem_reverse] at hm
    obtain ⟨_, ⟨a, ha, rfl⟩, he⟩ := hm
    have hao := (srcs_in_order C.topo hn (s := a) (by simp [hsrc, ha])).1
    rw [opTy_at V hao (C.compl a hao)] at he
    rw [← he]; exact s2 a ha
  have hulen : us.length = alts.length := by
    have := congrArg List.length hus
    simpa using this
  have hfu := hσ u (by rw [hd]; simp [Def.refs]) t
  rw [hu] at hfu
  have hfus : ∀ w ∈ us, Fits (V n).ty (σ w t) := by
    intro w hw
    have := hσ w (by rw [hd]; simp [Def.refs, hw]) t
    exact this.congr (hust w hw)
  have hcell : circuitOf (opsOf (block V order)) X lat blk (order.idxOf n) = .mux u us := by
    simp [circuitOf, cellOf, hd, hopi, opInfo, exactOp, ho, binaryKind, unaryKind, hsrc]
  have hlm : lowerMux (σ u t) (us.map fun v => σ v t) = (us.map fun v => σ v t).reverse[(σ u t).n]? := by
    cases hs : (σ u t).sgn <;> simp [lowerMux, hs, multibitMux, FVal.asUInt]
  have hspec : ∀ x : FVal, x.n = nodeFn V oob n ((u :: us).map fun s => (σ s t).n) →
      WireSpec (kernelInterp V order port oob) lat X σ (order.idxOf n) t x := by
    intro x hx
    simp only [WireSpec, hd]
    intro t' ht
    rw [C.lats.units n hn (by simp [ho, isUnitOp])] at ht
    have : t' = t := by simpa using ht.symm
    subst this
    rw [interp_fn hn]; exact hx
  have hrev : ∀ i : Nat, ((us.map fun s => (σ s t).n).reverse)[i]? = (((us.map fun v => σ v t).reverse)[i]?).map FVal.n := by
    intro i
    simp only [← List.map_reverse, List.getElem?_map, Option.map_map]
    rfl
  unfold StepOK
  rw [hcell, C.valTy_orig hn]
  simp only [cellOut, hlm]
  cases hsel : (us.map fun v => σ v t).reverse[(σ u t).n]? with
  | some x =>
    refine ⟨x, rfl, ?_, hspec x ?_⟩
    · have := List.mem_of_getElem? hsel
      rw [List.mem_reverse, List.mem_map] at this
      obtain ⟨w, hw, rfl⟩ := this
      exact hfus w hw
    · simp only [nodeFn, ho, if_true, hsrc, List.map_cons]
      rw [hrev, hsel]; rfl
  | none =>
    refine ⟨_, rfl, ?_, hspec _ ?_⟩
    · have hun : us ≠ [] := by
        intro e; rw [e] at hulen; exact hne (List.length_eq_zero_iff.mp hulen.symm)
      obtain ⟨g1, g2, g3⟩ := C.oobs (V n).ty.isSigned (width (V n).ty) (σ u t) (us.map fun v => σ v t) (by simpa using hun) (by
        intro x hx
        obtain ⟨w, hw, rfl⟩ := List.mem_map.mp hx
        exact ⟨(hfus w hw).sgn, (hfus w hw).w, (hfus w hw).2⟩)
      exact fits_mk g1 g2 g3
    · simp only [nodeFn, ho, if_true, hsrc, List.map_cons]
      rw [hrev, hsel]
      simp only [Option.map_none]
      rw [← hfu.1, List.map_map]
      congr 2
      refine List.map_congr_left fun w hw => ?_
      exact (hfus w hw).1

/-- Every cell of the circuit. -/
theorem Ctx.step (C : Ctx V order lat X blk port oob) {v : Nat} (hv : v < X.size) (hne : X.defn v ≠ .erased) (reg : Nat → Nat)
    (σ : Nat → Nat → FVal) (hσ : Operands V order X σ v) (t : Nat) : StepOK V order lat X blk port oob reg σ v t := by
  by_cases hvo : v < order.length
  · obtain ⟨hn, hi⟩ := value_is_node C.topo.nodup hvo
    generalize order[v] = n at hn hi
    subst hi
    have hcn := C.compl n hn
    have hsup := (C.supp n hn).2
    have hbin := hcn.binary
    cases ho : (V n).op
    case NONE => exact absurd ho hcn.notNone
    case IN => exact C.step_in hn ho reg σ t
    case OUT => exact C.step_out hn ho reg σ hσ t
    case CONST => exact C.step_const hn ho reg σ t
    case MUX => exact C.step_mux hn ho reg σ hσ t
    case OFFSET =>
      exfalso
      have hd := progOf_defn V hn hcn
      obtain ⟨⟨o, hdt⟩, -⟩ := hcn.offset ho
      obtain ⟨a, ha⟩ := hcn.unary (by simp [ho])
      have hlt : order.idxOf n < (progOf (block V order)).size := by rw [progOf_size]; exact List.idxOf_lt_length_iff.mpr hn
      have hdi := C.inv.defs _ hlt
      rw [hd] at hdi
      simp only [defOf, ho, ha, hdt, DefInv] at hdi
      rcases hdi with ⟨s', h1, _⟩ | h1
      · exact C.noOff _ hv s' o h1
      · exact hne h1
    case AND => exact C.step_bitwise hn (by simp [ho]) reg σ hσ t
    case OR => exact C.step_bitwise hn (by simp [ho]) reg σ hσ t
    case XOR => exact C.step_bitwise hn (by simp [ho]) reg σ hσ t
    case NOT => exact C.step_not hn ho reg σ hσ t
    case SHL => exact C.step_shl hn ho reg σ hσ t
    case SHR => exact C.step_shr hn ho reg σ hσ t
    case BITS => exact C.step_bits hn ho reg σ hσ t
    case CAT => exact C.step_cat hn ho reg σ hσ t
    case CAST => exact C.step_cast hn ho reg σ hσ t
    case ADD =>
      obtain ⟨a, b, hs⟩ := hbin (by simp [ho])
      rw [ho] at hsup
      exact C.step_arith hn (by simp [ho]) hs (k := .add) (op := .add) (by simp [exactOp, ho, binaryKind, unitOf]) rfl rfl
        (by intro x y; rw [ho]; rfl) hsup reg σ hσ t
    case SUB =>
      obtain ⟨a, b, hs⟩ := hbin (by simp [ho])
      rw [ho] at hsup
      exact C.step_arith hn (by simp [ho]) hs (k := .sub) (op := .sub) (by simp [exactOp, ho, binaryKind, unitOf]) rfl rfl
        (by intro x y; rw [ho]; rfl) hsup reg σ hσ t
    case MUL =>
      obtain ⟨a, b, hs⟩ := hbin (by simp [ho])
      rw [ho] at hsup
      exact C.step_arith hn (by simp [ho]) hs (k := .mul) (op := .mul) (by simp [exactOp, ho, binaryKind, unitOf]) rfl rfl
        (by intro x y; rw [ho]; rfl) hsup reg σ hσ t
    case DIV => rw [ho] at hsup; exact absurd hsup (by simp)
    case NEG => rw [ho] at hsup; exact absurd hsup (by simp)
    case LESS =>
      obtain ⟨a, b, hs⟩ := hbin (by simp [ho])
      rw [ho] at hsup
      exact C.step_comp hn (by simp [ho]) hs (k := .less) (op := .lt) (by simp [exactOp, ho, binaryKind, unitOf]) rfl rfl
        (by intro x y; rw [ho]; rfl) hsup reg σ hσ t
    case LESSEQ =>
      obtain ⟨a, b, hs⟩ := hbin (by simp [ho])
      rw [ho] at hsup
      exact C.step_comp hn (by simp [ho]) hs (k := .lesseq) (op := .le) (by simp [exactOp, ho, binaryKind, unitOf]) rfl rfl
        (by intro x y; rw [ho]; rfl) hsup reg σ hσ t
    case GREATER =>
      obtain ⟨a, b, hs⟩ := hbin (by simp [ho])
      rw [ho] at hsup
      exact C.step_comp hn (by simp [ho]) hs (k := .greater) (op := .gt) (by simp [exactOp, ho, binaryKind, unitOf]) rfl rfl
        (by intro x y; rw [ho]; rfl) hsup reg σ hσ t
    case GREATEREQ =>
      obtain ⟨a, b, hs⟩ := hbin (by simp [ho])
      rw [ho] at hsup
      exact C.step_comp hn (by simp [ho]) hs (k := .greatereq) (op := .ge) (by simp [exactOp, ho, binaryKind, unitOf]) rfl rfl
        (by intro x y; rw [ho]; rfl) hsup reg σ hσ t
    case EQ =>
      obtain ⟨a, b, hs⟩ := hbin (by simp [ho])
      rw [ho] at hsup
      exact C.step_comp hn (by simp [ho]) hs (k := .eq) (op := .eq) (by simp [exactOp, ho, binaryKind, unitOf]) rfl rfl
        (by intro x y; rw [ho]; rfl) hsup reg σ hσ t
    case NEQ =>
      obtain ⟨a, b, hs⟩ := hbin (by simp [ho])
      rw [ho] at hsup
      exact C.step_comp hn (by simp [ho]) hs (k := .neq) (op := .ne) (by simp [exactOp, ho, binaryKind, unitOf]) rfl rfl
        (by intro x y; rw [ho]; rfl) hsup reg σ hσ t
  · obtain ⟨s, m, hd, _⟩ := C.inv.fresh v (by rw [progOf_size]; omega) hv
    exact C.step_latency hv hd reg σ hσ t

end

end Verif.Flow
