import Verif.Flow.TyInv
import Verif.Hw.NamesProps
import Verif.Hw.StubsExact
import Verif.Hw.LowerProps
/-
The module each unit and buffer becomes an instance of, and what the instance outputs.
-/
namespace Verif.Flow
open Verif.Dfcxx Verif.Hw Verif.Sched

theorem convertAll_from (S : HwOp → Prop) : ∀ (ops : List HwOp) (c : List Module), (∀ m ∈ c, ∃ op, S op ∧ m = createModule op) →
    (∀ o ∈ ops, S o) → (convertAll c ops).2.length = ops.length ∧
    ∀ (i : Nat) (o : HwOp), ops[i]? = some o → ∃ op', S op' ∧ (convertAll c ops).2[i]? = some (createModule op') ∧
      constructModuleName op' = constructModuleName o := by
  intro ops
  induction ops with
  | nil => intro c _ _; exact ⟨rfl, fun i o hi => by simp at hi⟩
  | cons op ops ih =>
    intro c hc hS
    have hname : ∀ op, (createModule op).name = constructModuleName op := by intro op; cases op <;> rfl
    have key : ∃ c' op', findOrCreateModule c op = (c', createModule op') ∧ S op' ∧
        constructModuleName op' = constructModuleName op ∧ ∀ m ∈ c', ∃ op, S op ∧ m = createModule op := by
      unfold findOrCreateModule
      cases hf : c.find? (fun m => m.name = constructModuleName op) with
      | none =>
        refine ⟨_, op, rfl, hS op (by simp), rfl, ?_⟩
        intro m hm
        rcases List.mem_cons.1 hm with rfl | hm
        · exact ⟨op, hS op (by simp), rfl⟩
        · exact hc m hm
      | some m =>
        obtain ⟨h1, h2⟩ := find_name hf
        obtain ⟨op', hs, rfl⟩ := hc m h1
        exact ⟨c, op', rfl, hs, by rw [← h2, hname], hc⟩
    obtain ⟨c', op', h1, hs', h2, h3⟩ := key
    obtain ⟨h4, h5⟩ := ih c' h3 (fun o ho => hS o (by simp [ho]))
    simp only [convertAll, h1]
    refine ⟨by simp [h4], ?_⟩
    intro i o hi
    cases i with
    | zero => simp at hi; subst hi; exact ⟨op', hs', rfl, h2⟩
    | succ i => exact h5 i o (by simpa using hi)

theorem lookup_zip : ∀ (ks : List Nat) (ms : List Module) (i : Nat) (k : Nat) (m : Module), ks.Nodup → ks[i]? = some k →
    ms[i]? = some m → (ks.zip ms).lookup k = some m
  | [], _, _, _, _, _, h, _ => by simp at h
  | _ :: _, [], _, _, _, _, _, h => by simp at h
  | a :: ks, b :: ms, 0, k, m, _, h1, h2 => by
    simp at h1 h2; subst h1; subst h2; simp
  | a :: ks, b :: ms, i + 1, k, m, hnd, h1, h2 => by
    rw [List.getElem?_cons_succ] at h1 h2
    have hne : k ≠ a := by
      rintro rfl
      exact (List.nodup_cons.mp hnd).1 (List.mem_of_getElem? h1)
    rw [List.zip_cons_cons, List.lookup_cons]
    have : (k == a) = false := by simpa using hne
    simp only [this]
    exact lookup_zip ks ms i k m (List.nodup_cons.mp hnd).2 h1 h2

theorem instances_lookup (ops : List OpInfo) (X : Prog) (lat : Nat → Int) {blk : List Nat} (hnd : blk.Nodup) {v : Nat} (hv : v ∈ blk)
    {o : HwOp} (ho : hwOpOf ops X lat v = some o) :
    ∃ u op', u ∈ blk ∧ hwOpOf ops X lat u = some op' ∧ (instances ops X lat blk).lookup v = some (createModule op') ∧
      constructModuleName op' = constructModuleName o := by
  let l := blk.filterMap fun v => (hwOpOf ops X lat v).map fun o => (v, o)
  have hmem : (v, o) ∈ l := List.mem_filterMap.mpr ⟨v, hv, by simp [ho]⟩
  obtain ⟨i, hi⟩ := List.mem_iff_getElem?.mp hmem
  have hnd' : (l.map Prod.fst).Nodup := by
    have : (l.map Prod.fst).Sublist blk := by
      have e : l.map Prod.fst = blk.filter (fun v => (hwOpOf ops X lat v).isSome) := by
        simp only [l, List.map_filterMap]
        rw [← List.filterMap_eq_filter]
        congr 1
        funext v
        cases hq : hwOpOf ops X lat v <;> simp [Option.guard, hq]
      rw [e]; exact List.filter_sublist
    exact this.nodup hnd
  obtain ⟨_, h2⟩ := convertAll_from (fun o => ∃ u ∈ blk, hwOpOf ops X lat u = some o) (l.map Prod.snd) [] (by simp) (by
    intro o ho
    obtain ⟨⟨u, o'⟩, hp, rfl⟩ := List.mem_map.mp ho
    obtain ⟨w, hw, he⟩ := List.mem_filterMap.mp hp
    cases hq : hwOpOf ops X lat w with
    | none => rw [hq] at he; cases he
    | some q => rw [hq] at he; simp at he; obtain ⟨rfl, rfl⟩ := he; exact ⟨w, hw, hq⟩)
  obtain ⟨op', ⟨u, hu, huo⟩, h3, h4⟩ := h2 i o (by rw [List.getElem?_map, hi]; rfl)
  exact ⟨u, op', hu, huo, lookup_zip _ _ i v _ hnd' (by rw [List.getElem?_map, hi]; rfl) h3, h4⟩

/-- No two buffers of the same width and depth hold values of different signedness (see C38). -/
def NoMixedBuffers (base : Nat → DFType) (X : Prog) : Prop :=
  ∀ u v s s' n, u < X.size → v < X.size → X.defn u = .latency s n → X.defn v = .latency s' n →
    width (valTy base X u) = width (valTy base X v) → (valTy base X u).isSigned = (valTy base X v).isSigned

theorem fty_width (ty : DFType) : (convertType (hwTy ty)).width = width ty := by
  cases ty with
  | fixed s i f => cases s <;> simp [hwTy, convertType, FTy.width, width]
  | _ => rfl

theorem fty_signed (ty : DFType) : ftySigned (convertType (hwTy ty)) = ty.isSigned := by
  cases ty with
  | fixed s i f => cases s <;> rfl
  | _ => rfl

theorem fty_ext {a b : FTy} (h1 : a.width = b.width) (h2 : ftySigned a = ftySigned b) : a = b := by
  cases a <;> cases b <;> simp_all [FTy.width, ftySigned]

/-- The module of a unit or buffer. -/
theorem instance_module (ops : List OpInfo) (X : Prog) (lat : Nat → Int) {blk : List Nat} (hblk : blk.Nodup)
    (hin : ∀ u ∈ blk, u < X.size) (hpos : ∀ u < X.size, ∀ s n, X.defn u = .latency s n → 0 < n)
    (hmix : NoMixedBuffers (opTy ops) X) {v : Nat} (hv : v ∈ blk) {o : HwOp}
    (ho : hwOpOf ops X lat v = some o) : ∃ m, (instances ops X lat blk).lookup v = some m ∧ stubOf m.name = expectedStub o ∧
      m.res = (createModule o).res ∧ m.args = (createModule o).args ∧ m.latency = (createModule o).latency := by
  obtain ⟨u, op', hu, huo, h1, h2⟩ := instances_lookup ops X lat hblk hv ho
  have hname : (createModule op').name = constructModuleName o := by rw [← h2]; cases op' <;> rfl
  refine ⟨_, h1, by rw [hname, stub_selection], ?_⟩
  cases o with
  | unit k ins out l =>
    cases op' with
    | unit k' ins' out' l' =>
      obtain ⟨_, rfl, rfl, h5⟩ := unit_names_injective _ _ _ _ _ _ _ _ h2
      exact ⟨rfl, rfl, Int.ofNat_inj.mp ((posLatency_eq _).trans (h5.trans (posLatency_eq _).symm))⟩
    | fifo t l' => exact absurd h2.symm (unit_fifo_names_differ _ _ _ _ _ _)
  | fifo t l =>
    cases op' with
    | unit k' ins' out' l' => exact absurd h2 (unit_fifo_names_differ _ _ _ _ _ _)
    | fifo t' l' =>
      obtain ⟨hw, hl⟩ := fifo_names_width_depth_partial _ _ _ _ h2
      have hfifo : ∀ w t l, hwOpOf ops X lat w = some (.fifo t l) → ∃ s, X.defn w = .latency s l ∧ t = hwTy (valTy (opTy ops) X w) := by
        intro w t l hw
        unfold hwOpOf at hw
        split at hw
        · rename_i s n hd; cases hw; exact ⟨s, hd, rfl⟩
        · split at hw
          · rename_i o' _
            cases hk : unitOf o'.kind <;> rw [hk] at hw <;> cases hw
          · cases hw
        · cases hw
      obtain ⟨s, hd, rfl⟩ := hfifo v t l ho
      obtain ⟨s', hd', rfl⟩ := hfifo u t' l' huo
      have hp := hpos v (hin v hv) s l hd
      have hp' := hpos u (hin u hu) s' l' hd'
      have hll : l' = l := by
        omega
      subst hll
      rw [fty_width, fty_width] at hw
      have hsg := hmix u v s' s l' (hin u hu) (hin v hv) hd' hd hw
      have he : convertType (hwTy (valTy (opTy ops) X u)) = convertType (hwTy (valTy (opTy ops) X v)) :=
        fty_ext (by rw [fty_width, fty_width]; exact hw) (by rw [fty_signed, fty_signed]; exact hsg)
      exact ⟨he, by simp [createModule, he], rfl⟩

/-! ### What instances output -/

/-- A value of the hardware type of a data type. -/
def Fits (ty : DFType) (x : FVal) : Prop := x = fval ty x.n ∧ x.n < 2 ^ width ty

theorem Fits.sgn {ty : DFType} {x : FVal} (h : Fits ty x) : x.sgn = ty.isSigned := by
  rw [h.1]; exact fty_signed ty

theorem Fits.w {ty : DFType} {x : FVal} (h : Fits ty x) : x.w = width ty := by
  rw [h.1]; exact fty_width ty

theorem fits_mk {ty : DFType} {x : FVal} (h1 : x.sgn = ty.isSigned) (h2 : x.w = width ty) (h3 : x.n < 2 ^ width ty) : Fits ty x := by
  refine ⟨?_, h3⟩
  cases x
  simp only at h1 h2
  simp [fval, typed, fty_signed, fty_width, h1, h2]

theorem fits_fval {ty : DFType} {n : Nat} (h : n < 2 ^ width ty) : Fits ty (fval ty n) := ⟨rfl, h⟩

theorem SameHw.conv {a b : DFType} (h : SameHw a b) : convertType (hwTy a) = convertType (hwTy b) :=
  fty_ext (by rw [fty_width, fty_width]; exact h.1) (by rw [fty_signed, fty_signed]; exact h.2)

theorem Fits.congr {a b : DFType} {x : FVal} (hs : SameHw a b) (h : Fits a x) : Fits b x :=
  ⟨by have := h.1; unfold fval at this ⊢; rw [← hs.conv]; exact this, by rw [← hs.1]; exact h.2⟩

theorem conn_fits {ty : DFType} {x : FVal} (h : Fits ty x) : conn (convertType (hwTy ty)) x = some x := by
  unfold conn
  rw [fty_signed, fty_width, if_pos ⟨h.sgn, by rw [h.w]⟩]
  simp [FVal.pad, h.w]

theorem portStream_fits {ty : DFType} {x : Nat → FVal} (h : ∀ t, Fits ty (x t)) :
    portStream (convertType (hwTy ty)) x = fun t => BitVec.ofNat _ (x t).n := by
  funext t
  simp [portStream, conn_fits (h t)]

theorem toNat_fits {ty : DFType} {x : FVal} (h : Fits ty x) :
    (BitVec.ofNat (convertType (hwTy ty)).width x.n).toNat = x.n := by
  rw [BitVec.toNat_ofNat, fty_width, Nat.mod_eq_of_lt h.2]

/-- The number of a pattern is the number of the bit vector. -/
theorem val_number {ty : DFType} {x : FVal} (h : Fits ty x) :
    val ty.isSigned (BitVec.ofNat (convertType (hwTy ty)).width x.n) = number ty x.n := by
  have hn := toNat_fits h
  unfold val number
  cases hs : ty.isSigned
  · simp only [Bool.false_eq_true, if_false, false_and]; rw [hn]
  · simp only [if_true, true_and]
    rw [BitVec.toInt_eq_toNat_cond, hn, fty_width]
    by_cases hc : 2 ^ width ty ≤ 2 * x.n
    · rw [if_neg (by omega), if_pos hc]; norm_cast
    · rw [if_pos (by omega), if_neg hc]

theorem pattern_ofInt (ty : DFType) (z : Int) : (BitVec.ofInt (convertType (hwTy ty)).width z).toNat = pattern ty z := by
  rw [BitVec.toNat_ofInt, fty_width]
  unfold pattern
  norm_cast

theorem pattern_lt (ty : DFType) (z : Int) : pattern ty z < 2 ^ width ty := by
  rw [← pattern_ofInt, ← fty_width]; exact BitVec.isLt _

/-- The output of a buffer. -/
theorem fifo_inst {m : Module} {ty : DFType} (reg : Nat → Nat) {x : Nat → FVal} (hx : ∀ t, Fits ty (x t))
    (hst : stubOf m.name = some .fifo) (hres : m.res = convertType (hwTy ty)) (hargs : m.args = [convertType (hwTy ty)])
    (hpos : 0 < m.latency) (t : Nat) :
    ∃ y, instOut m reg [x] t = some y ∧ Fits ty y ∧ ∀ t', t = t' + m.latency → y.n = (x t').n := by
  obtain ⟨name, res, args, L⟩ := m
  simp only at hst hres hargs hpos
  subst hres; subst hargs
  refine ⟨typed (convertType (hwTy ty)) (fifoOut L (fun i => BitVec.ofNat (convertType (hwTy ty)).width (reg i))
    (portStream (convertType (hwTy ty)) x) t).toNat,
    by simp only [instOut, hst, conn_fits (hx t), Option.isSome_some, if_true], ?_, ?_⟩
  · exact fits_fval (by rw [← fty_width]; exact BitVec.isLt _)
  · rintro t' rfl
    simp only [typed]
    rw [fifo_exact_delay L hpos, portStream_fits hx]
    exact toNat_fits (hx t')

/-- The number of a pattern read with some signedness is the number of the bit vector read that way. -/
theorem val_numAs (s : Bool) {w n : Nat} (h : n < 2 ^ w) : val s (BitVec.ofNat w n) = numAs s w n := by
  have hn : (BitVec.ofNat w n).toNat = n := by rw [BitVec.toNat_ofNat, Nat.mod_eq_of_lt h]
  unfold val numAs
  cases s
  · simp only [Bool.false_eq_true, if_false, false_and]; rw [hn]
  · simp only [if_true, true_and]
    rw [BitVec.toInt_eq_toNat_cond, hn]
    by_cases hc : 2 ^ w ≤ 2 * n
    · rw [if_neg (by omega), if_pos hc]; norm_cast
    · rw [if_pos (by omega), if_neg hc]

theorem val_fits {ty : DFType} {x : FVal} (s : Bool) (h : Fits ty x) :
    val s (BitVec.ofNat (convertType (hwTy ty)).width x.n) = numAs s (width ty) x.n := by
  rw [val_numAs s (by rw [fty_width]; exact h.2), fty_width]

/-- The output of a cast. -/
theorem cast_inst {m : Module} {ta ty : DFType} (reg : Nat → Nat) {x : Nat → FVal} (hx : ∀ t, Fits ta (x t))
    (hst : stubOf m.name = some .cast) (hres : m.res = convertType (hwTy ty)) (hargs : m.args = [convertType (hwTy ta)])
    (h2 : width ty ≤ width ta ∨ unsignedTy ty ∨ m.latency = 0) (t : Nat) :
    ∃ y, instOut m reg [x] t = some y ∧ Fits ty y ∧
      ∀ t', t = t' + m.latency → y.n = pattern ty (numAs ty.isSigned (width ta) (x t').n) := by
  obtain ⟨name, res, args, L⟩ := m
  simp only at hst hres hargs h2
  subst hres; subst hargs
  refine ⟨typed (convertType (hwTy ty)) (castModule (convertType (hwTy ty)).width (ftySigned (convertType (hwTy ty))) L
    (fun i => BitVec.ofNat (convertType (hwTy ta)).width (reg i)) (portStream (convertType (hwTy ta)) x) t).toNat,
    by simp only [instOut, hst, conn_fits (hx t), Option.isSome_some, if_true], ?_, ?_⟩
  · exact fits_fval (by rw [← fty_width]; exact BitVec.isLt _)
  · rintro t' rfl
    simp only [typed]
    rw [cast_unit_exact _ _ L _ _ t' (by rw [fty_width, fty_width, fty_signed]; exact h2), portStream_fits hx, fty_signed,
      val_fits _ (hx t'), pattern_ofInt]

/-- The output of an arithmetic unit. -/
theorem arith_inst {m : Module} {ta tb ty : DFType} {op : VOp} {f : Int → Int → Int} (hf : arithSpec op = some f)
    (reg : Nat → Nat) {x y : Nat → FVal} (hx : ∀ t, Fits ta (x t)) (hy : ∀ t, Fits tb (y t))
    (hst : stubOf m.name = some (.binary op)) (hres : m.res = convertType (hwTy ty))
    (hargs : m.args = [convertType (hwTy ta), convertType (hwTy tb)])
    (hL : 0 < m.latency ∨ unsignedTy ty) (t : Nat) :
    ∃ z, instOut m reg [x, y] t = some z ∧ Fits ty z ∧
      ∀ t', t = t' + m.latency → z.n = hwArith f ty (ta, (x t').n) (tb, (y t').n) := by
  obtain ⟨name, res, args, L⟩ := m
  simp only at hst hres hargs hL
  subst hres; subst hargs
  unfold unsignedTy at hL
  have hsome : ∃ r, binaryModule op (ftySigned (convertType (hwTy ta))) (ftySigned (convertType (hwTy tb)))
      (ftySigned (convertType (hwTy ty))) (convertType (hwTy ty)).width L (fun i => BitVec.ofNat _ (reg i))
      (portStream (convertType (hwTy ta)) x) (portStream (convertType (hwTy tb)) y) t = some r := by
    unfold binaryModule
    by_cases h0 : L = 0
    · have hu : ty.isSigned = false := by
        rcases hL with h | h
        · omega
        · exact h
      simp [h0, combBinary, fty_signed, hu]
    · simp [h0]
  obtain ⟨r, hr⟩ := hsome
  refine ⟨typed (convertType (hwTy ty)) r.toNat, by
    simp only [instOut, hst, conn_fits (hx t), conn_fits (hy t), Option.isSome_some, and_self, if_true, hr, Option.map_some], ?_, ?_⟩
  · exact fits_fval (by rw [← fty_width]; exact r.isLt)
  · rintro t' rfl
    simp only [typed]
    rw [arith_unit_exact op f hf _ _ _ _ L (by rw [fty_signed]; exact hL)] at hr
    cases hr
    rw [pattern_ofInt, portStream_fits hx, portStream_fits hy, fty_signed, val_fits _ (hx t'), val_fits _ (hy t')]
    unfold hwArith
    congr 1
    rw [fty_width, fty_width]
    generalize f _ _ = z
    have hz : BitVec.ofInt (max (width ta) (width tb)) z =
        BitVec.ofNat (max (width ta) (width tb)) (z % 2 ^ max (width ta) (width tb)).toNat := by
      apply BitVec.eq_of_toNat_eq
      have h0 : (0 : Int) ≤ z % 2 ^ max (width ta) (width tb) := Int.emod_nonneg _ (by positivity)
      have h1 : z % 2 ^ max (width ta) (width tb) < 2 ^ max (width ta) (width tb) := Int.emod_lt_of_pos _ (by positivity)
      rw [BitVec.toNat_ofInt, BitVec.toNat_ofNat, Nat.mod_eq_of_lt]
      · norm_cast
      · zify; rw [Int.toNat_of_nonneg h0]; exact h1
    rw [hz, val_numAs]
    have h0 : (0 : Int) ≤ z % 2 ^ max (width ta) (width tb) := Int.emod_nonneg _ (by positivity)
    have h1 : z % 2 ^ max (width ta) (width tb) < 2 ^ max (width ta) (width tb) := Int.emod_lt_of_pos _ (by positivity)
    zify; rw [Int.toNat_of_nonneg h0]; exact h1

/-- The output of a comparison. -/
theorem comp_inst {m : Module} {ta tb ty : DFType} {op : VOp} {f : Int → Int → Bool} (hf : compSpec op = some f)
    (reg : Nat → Nat) {x y : Nat → FVal} (hx : ∀ t, Fits ta (x t)) (hy : ∀ t, Fits tb (y t))
    (hst : stubOf m.name = some (.binary op)) (hres : m.res = convertType (hwTy ty))
    (hargs : m.args = [convertType (hwTy ta), convertType (hwTy tb)])
    (hty : 0 < width ty) (hwa : 0 < width ta) (hwb : 0 < width tb) (hu : unsignedTy ty) (t : Nat) :
    ∃ z, instOut m reg [x, y] t = some z ∧ Fits ty z ∧
      ∀ t', t = t' + m.latency → z.n = truth (hwComp f (ta, (x t').n) (tb, (y t').n)) := by
  obtain ⟨name, res, args, L⟩ := m
  simp only at hst hres hargs
  subst hres; subst hargs
  unfold unsignedTy at hu
  have hsome : ∃ r, binaryModule op (ftySigned (convertType (hwTy ta))) (ftySigned (convertType (hwTy tb)))
      (ftySigned (convertType (hwTy ty))) (convertType (hwTy ty)).width L (fun i => BitVec.ofNat _ (reg i))
      (portStream (convertType (hwTy ta)) x) (portStream (convertType (hwTy tb)) y) t = some r := by
    unfold binaryModule
    by_cases h0 : L = 0
    · simp [h0, combBinary, fty_signed, hu]
    · simp [h0]
  obtain ⟨r, hr⟩ := hsome
  have ext : ∀ (tc : DFType) (s : Bool) (z : FVal), Fits tc z → width tc ≤ max (width ta) (width tb) →
      val s ((BitVec.ofNat (convertType (hwTy tc)).width z.n).setWidth
        (max (convertType (hwTy ta)).width (convertType (hwTy tb)).width)) = numAs s (max (width ta) (width tb)) z.n := by
    intro tc s z hz hle
    have hlt : z.n < 2 ^ max (width ta) (width tb) := Nat.lt_of_lt_of_le hz.2 (Nat.pow_le_pow_right (by omega) hle)
    have e : (BitVec.ofNat (convertType (hwTy tc)).width z.n).setWidth
        (max (convertType (hwTy ta)).width (convertType (hwTy tb)).width) =
        BitVec.ofNat (max (convertType (hwTy ta)).width (convertType (hwTy tb)).width) z.n := by
      apply BitVec.eq_of_toNat_eq
      rw [BitVec.toNat_setWidth, toNat_fits hz, BitVec.toNat_ofNat]
    rw [e, val_numAs s (by rw [fty_width, fty_width]; exact hlt), fty_width, fty_width]
  refine ⟨typed (convertType (hwTy ty)) r.toNat, by
    simp only [instOut, hst, conn_fits (hx t), conn_fits (hy t), Option.isSome_some, and_self, if_true, hr, Option.map_some], ?_, ?_⟩
  · exact fits_fval (by rw [← fty_width]; exact r.isLt)
  · rintro t' rfl
    simp only [typed]
    rw [fty_signed ty, hu, compare_unit_exact op f hf _ _ _ L (by rw [fty_width]; exact hwa) (by rw [fty_width]; exact hwb)] at hr
    cases hr
    rw [portStream_fits hx, portStream_fits hy, fty_signed, fty_signed, ext ta _ _ (hx t') (Nat.le_max_left _ _),
      ext tb _ _ (hy t') (Nat.le_max_right _ _), BitVec.toNat_ofNat, fty_width]
    have h1 : (1 : Nat) < 2 ^ width ty := Nat.one_lt_two_pow (by omega)
    unfold hwComp
    dsimp only
    cases f _ _ <;> simp [truth, Nat.mod_eq_of_lt h1]

end Verif.Flow
