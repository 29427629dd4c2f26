import Verif.Flow.Examples
import Verif.Dfcxx.SimIOProps
import Mathlib.Data.Int.ModEq
/-
C59: what the simulator reports is what the hardware outputs.
-/
namespace Verif.Flow
open Verif.Dfcxx

/-! ### When simulator and hardware agree (specification) -/

/-- Nodes whose simulated 64-bit value is exactly the bit pattern of the node, without stray high bits. -/
inductive Exact (V : Nat → NodeV) : Nat → Prop
  | input {n} (h : (V n).op = .IN) : Exact V n
  | const {n c} (h : (V n).op = .CONST) (hk : (V n).kind = .const c) (hc : c.toNat < 2 ^ width (V n).ty) : Exact V n
  | pass {n} (h : (V n).op ∈ [.OUT, .AND, .OR, .XOR, .SHR]) (hs : ∀ s ∈ (V n).srcs, Exact V s) : Exact V n
  | mux {n c alts} (h : (V n).op = .MUX) (he : (V n).srcs = c :: alts) (hs : ∀ s ∈ alts, Exact V s) : Exact V n
  | comp {n} (h : (V n).op.isComparison = true) : Exact V n
  | full {n} (h : width (V n).ty = 64) : Exact V n

/-- Nodes on which the simulator's 64-bit arithmetic and the hardware's arithmetic agree, besides what `Supported` demands: modular
operators with operands as wide as the result; right shifts and comparisons of exact unsigned values; multiplexers with an exact
select narrower than 64 bits. -/
def SimAgrees (V : Nat → NodeV) (n : Nat) : Prop :=
  width (V n).ty ≤ 64 ∧
  match (V n).op with
  | .IN | .CONST | .OUT | .NOT | .SHL => True
  | .ADD | .SUB | .MUL => ∀ s ∈ (V n).srcs, width (V s).ty = width (V n).ty
  | .AND | .OR | .XOR => (∀ s ∈ (V n).srcs, width (V s).ty = width (V n).ty) ∨ ∀ s ∈ (V n).srcs, Exact V s
  | .SHR => unsignedTy (V n).ty ∧ ∀ s ∈ (V n).srcs, Exact V s
  | .LESS | .LESSEQ | .GREATER | .GREATEREQ | .EQ | .NEQ => ∀ s ∈ (V n).srcs, Exact V s ∧ unsignedTy (V s).ty
  | .MUX => ∀ c alts, (V n).srcs = c :: alts → Exact V c ∧ width (V c).ty < 64
  | _ => False

/-- The simulator reads the same values the input ports get. -/
def SameInputs (V : Nat → NodeV) (nodes : List Nat) (port : String → Nat → Nat) (t : Nat) (inp : TickIn) : Prop :=
  ∀ n ∈ nodes, (V n).op = .IN → inp (V n).name = .ok (BitVec.ofNat 64 (port (V n).name t))

/-! ### Arithmetic -/

theorem word_modEq {v : Word} {w : Nat} (hw : w ≤ 64) : (v.toInt : Int) ≡ v.toNat [ZMOD 2 ^ w] := by
  have hd : (2 ^ w : Int) ∣ 2 ^ 64 := pow_dvd_pow 2 hw
  refine Int.ModEq.of_dvd hd ?_
  rw [BitVec.toInt_eq_toNat_bmod]
  unfold Int.ModEq
  have := Int.bmod_emod (x := (v.toNat : Int)) (m := 2 ^ 64)
  exact_mod_cast this

theorem number_modEq (ty : DFType) (n : Nat) : number ty n ≡ n [ZMOD 2 ^ width ty] := by
  unfold number
  split
  · exact (Int.modEq_iff_dvd).mpr ⟨1, by ring⟩
  · exact Int.ModEq.refl _

theorem number_mod_modEq (ty : DFType) (n : Nat) : number ty (n % 2 ^ width ty) ≡ n [ZMOD 2 ^ width ty] := by
  refine (number_modEq ty _).trans ?_
  unfold Int.ModEq
  push_cast
  exact Int.emod_emod_of_dvd _ (dvd_refl _)

theorem pattern_modEq {ty : DFType} {z : Int} {n : Nat} (h : z ≡ n [ZMOD 2 ^ width ty]) : pattern ty z = n % 2 ^ width ty := by
  unfold pattern
  rw [h]
  norm_cast

theorem unsigned_modEq {v : Word} {r : Int} {w : Nat} (hw : w ≤ 64) (h : IsUnsigned v r) : (v.toNat : Int) ≡ r [ZMOD 2 ^ w] := by
  have hd : (2 ^ w : Int) ∣ 2 ^ 64 := pow_dvd_pow 2 hw
  refine Int.ModEq.of_dvd hd ?_
  unfold IsUnsigned at h
  unfold Int.ModEq
  rw [h]
  exact Int.emod_emod_of_dvd _ (dvd_refl _)

theorem signed_modEq {v : Word} {r : Int} {w : Nat} (hw : w ≤ 64) (h : IsSigned v r) : (v.toNat : Int) ≡ r [ZMOD 2 ^ w] := by
  unfold IsSigned at h
  rw [← h]
  exact (word_modEq hw).symm

/-- One modular operator. -/
theorem modular_pattern {ty ta tb : DFType} {a b v : Word} (hw : width ty ≤ 64) (ha : width ta = width ty) (hb : width tb = width ty)
    (f : Int → Int → Int) (hf : ∀ m x x' y y' : Int, x ≡ x' [ZMOD m] → y ≡ y' [ZMOD m] → f x y ≡ f x' y' [ZMOD m])
    (h : IsUnsigned v (f a.toNat b.toNat) ∨ IsSigned v (f a.toInt b.toInt)) :
    pattern ty (f (number ta (a.toNat % 2 ^ width ta)) (number tb (b.toNat % 2 ^ width tb))) = v.toNat % 2 ^ width ty := by
  have ea := number_mod_modEq ta a.toNat
  have eb := number_mod_modEq tb b.toNat
  rw [ha] at ea ⊢
  rw [hb] at eb ⊢
  refine pattern_modEq ((hf _ _ _ _ _ ea eb).trans ?_)
  rcases h with h | h
  · exact (unsigned_modEq hw h).symm
  · exact ((hf _ _ _ _ _ (word_modEq hw) (word_modEq hw)).symm).trans (signed_modEq hw h).symm

/-! ### One tick -/

theorem bits_and {v a b : Word} (h : ∀ i, v.getLsbD i = (a.getLsbD i && b.getLsbD i)) : v.toNat = a.toNat &&& b.toNat := by
  have : v = a &&& b := by
    apply BitVec.eq_of_getLsbD_eq; intro i hi; rw [h, BitVec.getLsbD_and]
  rw [this, BitVec.toNat_and]

theorem bits_or {v a b : Word} (h : ∀ i, v.getLsbD i = (a.getLsbD i || b.getLsbD i)) : v.toNat = a.toNat ||| b.toNat := by
  have : v = a ||| b := by
    apply BitVec.eq_of_getLsbD_eq; intro i hi; rw [h, BitVec.getLsbD_or]
  rw [this, BitVec.toNat_or]

theorem bits_xor {v a b : Word} (h : ∀ i, v.getLsbD i = (a.getLsbD i != b.getLsbD i)) : v.toNat = a.toNat ^^^ b.toNat := by
  have : v = a ^^^ b := by
    apply BitVec.eq_of_getLsbD_eq; intro i hi; rw [h, BitVec.getLsbD_xor]
  rw [this, BitVec.toNat_xor]

theorem isBool_cases {v : Word} {p : Prop} [Decidable p] (h : IsBool v p) : v.toNat = truth (decide p) := by
  by_cases hp : p
  · rw [h.1 hp]; simp [truth, hp]
  · rw [h.2 hp]; simp [truth, hp]

theorem truth_lt (b : Bool) : truth b < 2 ^ 1 := by cases b <;> decide

/-- The kernels the comparison is about. -/
structure Comparable (V : Nat → NodeV) (L : Nat → Nat) (nodes : List Nat) : Prop where
  compl : ∀ n ∈ nodes, Complete V n
  shape : ∀ n ∈ nodes, (V n).Shape
  supp  : ∀ n ∈ nodes, Supported V (L n) n
  agree : ∀ n ∈ nodes, SimAgrees V n
  closed : ∀ n ∈ nodes, ∀ s ∈ (V n).srcs, s ∈ nodes

theorem out_srcs {V : Nat → NodeV} {n : Nat} (hc : Complete V n) (ho : (V n).op = .OUT) : ∃ s, (V n).srcs = [s] := by
  obtain ⟨s, hs⟩ := hc.out ho
  exact ⟨s, by simp [NodeV.srcs, hs]⟩

theorem word_not {v a : Word} (h : ∀ i < 64, v.getLsbD i = !a.getLsbD i) : v.toNat = 2 ^ 64 - 1 - a.toNat := by
  have : v = ~~~ a := by
    apply BitVec.eq_of_getLsbD_eq; intro i hi; rw [h i hi, BitVec.getLsbD_not]; simp [hi]
  rw [this, BitVec.toNat_not]

theorem exact_lt {F : FloatOps} {V : Nat → NodeV} {L : Nat → Nat} {nodes : List Nat} (K : Comparable V L nodes)
    {port : String → Nat → Nat} {t : Nat} {inp : TickIn} (hp : ∀ n ∈ nodes, (V n).op = .IN → ∀ t, port (V n).name t < 2 ^ width (V n).ty)
    (hin : SameInputs V nodes port t inp) {n : Nat} {v : Word} (h : Denotes F V inp n v) (hn : n ∈ nodes) (he : Exact V n) :
    v.toNat < 2 ^ width (V n).ty := by
  induction h with
  | node n val v hargs hv ih =>
    have hc := K.compl n hn
    have hs := (K.supp n hn).2
    have ha := K.agree n hn
    have hw := ha.1
    have ih' : ∀ s ∈ (V n).srcs, Exact V s → (val s).toNat < 2 ^ width (V s).ty := fun s hsm => ih s hsm (K.closed n hn s hsm)
    cases he with
    | input h =>
      simp only [Means, h] at hv
      have := hin n hn h
      rw [hv] at this
      cases this
      have h1 := hp n hn h t
      rw [BitVec.toNat_ofNat]
      exact Nat.lt_of_le_of_lt (Nat.mod_le _ _) h1
    | const h hk hcl =>
      simp only [Means, h, hk] at hv
      cases hv; exact hcl
    | full h => rw [h]; exact v.isLt
    | comp h =>
      have hb := (K.shape n hn).comp h
      have hwd : width (V n).ty = 1 := by rw [hb]; rfl
      rw [hwd]
      have key : v = 0 ∨ v = 1 := by
        have hbin : ∃ a b, (V n).srcs = [a, b] := by
          apply hc.binary
          cases ho : (V n).op <;> simp_all [OpType.isComparison]
        obtain ⟨a, b, hab⟩ := hbin
        have hf : (V n).ty = .fixed false 1 0 := by rw [hb]; rfl
        have hB : ∀ {p : Prop}, IsBool v p → v = 0 ∨ v = 1 := fun {p} hB => by
          by_cases hp : p
          · exact .inr (hB.1 hp)
          · exact .inl (hB.2 hp)
        cases ho : (V n).op <;> simp only [ho, OpType.isComparison] at h <;> first
          | (exact absurd h (by decide))
          | (simp only [Means, ho, hf, hab, List.map_cons, List.map_nil] at hv; exact hB hv)
      rcases key with rfl | rfl <;> decide
    | mux h he hall =>
      simp only [Means, h] at hv
      obtain ⟨-, sel, alts, hsa, hv⟩ := hv
      rw [he] at hsa
      simp only [List.map_cons, List.cons.injEq] at hsa
      obtain ⟨-, rfl⟩ := hsa
      rw [List.getElem?_map] at hv
      simp only [Option.map_eq_some_iff] at hv
      obtain ⟨s, hsx, rfl⟩ := hv
      have hsm := List.mem_of_getElem? hsx
      simp only [h] at hs
      rw [← ((hs _ _ he).2.2 s hsm).1]
      exact ih' s (by rw [he]; exact List.mem_cons_of_mem _ hsm) (hall s hsm)
    | pass h hall =>
      have h' : (V n).op = .OUT ∨ (V n).op = .AND ∨ (V n).op = .OR ∨ (V n).op = .XOR ∨ (V n).op = .SHR := by simpa using h
      rcases h' with ho | ho | ho | ho | ho
      · obtain ⟨s, hs1⟩ := out_srcs hc ho
        simp only [Means, ho, hs1, List.map_cons] at hv
        simp only [ho] at hs
        have hm : s ∈ (V n).srcs := by simp [hs1]
        rw [hv, ← (hs s hm).1]
        exact ih' s hm (hall s hm)
      all_goals simp only [ho] at hs
      · obtain ⟨a, b, hab⟩ := hc.binary (by simp [ho])
        simp only [Means, ho, hab, List.map_cons] at hv
        rw [bits_and hv]
        have h1 := ih' a (by simp [hab]) (hall a (by simp [hab]))
        have h2 := (hs.2 a b hab).2.2
        refine Nat.lt_of_le_of_lt Nat.and_le_left (Nat.lt_of_lt_of_le h1 (Nat.pow_le_pow_right (by decide) (by omega)))
      · obtain ⟨a, b, hab⟩ := hc.binary (by simp [ho])
        simp only [Means, ho, hab, List.map_cons] at hv
        rw [bits_or hv]
        have h1 := ih' a (by simp [hab]) (hall a (by simp [hab]))
        have h2 := ih' b (by simp [hab]) (hall b (by simp [hab]))
        have h3 := (hs.2 a b hab).2.2
        exact Nat.or_lt_two_pow (Nat.lt_of_lt_of_le h1 (Nat.pow_le_pow_right (by decide) (by omega)))
          (Nat.lt_of_lt_of_le h2 (Nat.pow_le_pow_right (by decide) (by omega)))
      · obtain ⟨a, b, hab⟩ := hc.binary (by simp [ho])
        simp only [Means, ho, hab, List.map_cons] at hv
        rw [bits_xor hv]
        have h1 := ih' a (by simp [hab]) (hall a (by simp [hab]))
        have h2 := ih' b (by simp [hab]) (hall b (by simp [hab]))
        have h3 := (hs.2 a b hab).2.2
        exact Nat.xor_lt_two_pow (Nat.lt_of_lt_of_le h1 (Nat.pow_le_pow_right (by decide) (by omega)))
          (Nat.lt_of_lt_of_le h2 (Nat.pow_le_pow_right (by decide) (by omega)))
      · obtain ⟨s, hs1⟩ := hc.unary (by simp [ho])
        simp only [Means, ho, hs1, List.map_cons] at hv
        obtain ⟨k, -, -, hv⟩ := hv
        have hm : s ∈ (V n).srcs := by simp [hs1]
        rw [hv, ← (hs s hm).1]
        exact Nat.lt_of_le_of_lt (Nat.div_le_self _ _) (ih' s hm (hall s hm))

theorem number_unsigned {ty : DFType} (h : unsignedTy ty) (n : Nat) : number ty n = n := by
  unfold unsignedTy at h
  simp [number, h]

/-- One operator, given that its operands agree. -/
theorem agree_op {V : Nat → NodeV} {port : String → Nat → Nat} {n t : Nat} {val : Nat → Word} {r : Nat}
    (ih : ∀ s ∈ (V n).srcs, StreamVal V port s t ((val s).toNat % 2 ^ width (V s).ty))
    (h : opMeaning (V n).op (V n).data (V n).ty ((V n).srcs.map fun s => ((V s).ty, (val s).toNat % 2 ^ width (V s).ty)) = some r) :
    StreamVal V port n t r :=
  .op (fun s => (val s).toNat % 2 ^ width (V s).ty) (by omega) ih h

/-- **One tick.** What the simulator computes for a node, cut to the node's width, is element `t` of the stream of the node. -/
theorem denotes_stream {F : FloatOps} {V : Nat → NodeV} {L : Nat → Nat} {nodes : List Nat} (K : Comparable V L nodes)
    {port : String → Nat → Nat} {t : Nat} {inp : TickIn} (hp : PortsOK V nodes port)
    (hin : SameInputs V nodes port t inp) {n : Nat} {v : Word} (h : Denotes F V inp n v) (hn : n ∈ nodes) :
    StreamVal V port n t (v.toNat % 2 ^ width (V n).ty) := by
  induction h with
  | node n val v hargs hv ih =>
    have hc := K.compl n hn
    have hs := (K.supp n hn).2
    have hag := K.agree n hn
    have hw := hag.1
    have ha := hag.2
    have ih' : ∀ s ∈ (V n).srcs, StreamVal V port s t ((val s).toNat % 2 ^ width (V s).ty) :=
      fun s hsm => ih s hsm (K.closed n hn s hsm)
    have hex : ∀ s ∈ (V n).srcs, Exact V s → (val s).toNat < 2 ^ width (V s).ty := fun s hsm he =>
      exact_lt K hp.fits hin (hargs s hsm) (K.closed n hn s hsm) he
    have hmod : ∀ s ∈ (V n).srcs, Exact V s → (val s).toNat % 2 ^ width (V s).ty = (val s).toNat := fun s hsm he =>
      Nat.mod_eq_of_lt (hex s hsm he)
    have h64 : 2 ^ width (V n).ty ∣ 2 ^ 64 := Nat.pow_dvd_pow 2 hw
    cases ho : (V n).op <;> simp only [ho] at hs ha
    case IN =>
      simp only [Means, ho] at hv
      have := hin n hn ho
      rw [hv] at this
      cases this
      have h1 := hp.fits n hn ho t
      have h2 : 2 ^ width (V n).ty ≤ 2 ^ 64 := Nat.pow_le_pow_right (by decide) hw
      rw [BitVec.toNat_ofNat, Nat.mod_eq_of_lt (Nat.lt_of_lt_of_le h1 h2), Nat.mod_eq_of_lt h1]
      by_cases hk : (V n).kind = .stream
      · exact .input ho hk
      · rw [hp.scalar n hn ho hk t]
        exact .scalar ho hk
    case CONST =>
      simp only [Means, ho] at hv
      have e : pattern (V n).ty (constInt (V n).ty v) = v.toNat % 2 ^ width (V n).ty := by
        refine pattern_modEq ?_
        unfold constInt
        split
        · exact word_modEq hw
        · exact Int.ModEq.refl _
      rw [← e]
      exact .const ho hv
    case OUT =>
      obtain ⟨s, hs1⟩ := out_srcs hc ho
      simp only [Means, ho, hs1, List.map_cons] at hv
      have hm : s ∈ (V n).srcs := by simp [hs1]
      rw [hv, ← (hs s hm).1]
      exact .out ho hs1 (ih' s hm)
    case MUX =>
      simp only [Means, ho] at hv
      obtain ⟨-, sel, alts, hsa, hv⟩ := hv
      obtain ⟨-, c, al, he⟩ := hc.mux ho
      rw [he] at hsa
      simp only [List.map_cons, List.cons.injEq] at hsa
      obtain ⟨rfl, rfl⟩ := hsa
      rw [List.getElem?_map] at hv
      simp only [Option.map_eq_some_iff] at hv
      obtain ⟨s, hsx, rfl⟩ := hv
      have hsm := List.mem_of_getElem? hsx
      rw [← ((hs _ _ he).2.2 s hsm).1]
      have hcm : c ∈ (V n).srcs := by simp [he]
      have hci := ih' c hcm
      rw [hmod c hcm (ha _ _ he).1] at hci
      exact .mux ho he (by omega) hci hsx (ih' s (by rw [he]; exact List.mem_cons_of_mem _ hsm))
    case NOT =>
      obtain ⟨s, hs1⟩ := hc.unary (by simp [ho])
      simp only [Means, ho, hs1, List.map_cons] at hv
      have hm : s ∈ (V n).srcs := by simp [hs1]
      refine agree_op ih' ?_
      simp only [opMeaning, ho, hs1, List.map_cons, List.map_nil, Option.some.injEq]
      rw [(hs.2.2 s hm).1, word_not hv]
      obtain ⟨q, hq⟩ := h64
      have hpos : 0 < 2 ^ width (V n).ty := Nat.two_pow_pos _
      have hlt := (val s).isLt
      generalize (val s).toNat = x at *
      generalize 2 ^ width (V n).ty = m at *
      rw [hq] at hlt ⊢
      have e := Nat.div_add_mod x m
      have hml := Nat.mod_lt x hpos
      have hql : x / m < q := Nat.div_lt_of_lt_mul hlt
      have : m * q - 1 - x = m * (q - 1 - x / m) + (m - 1 - x % m) := by
        have : m * q = m * (q - 1 - x / m) + m * (x / m) + m := by
          rw [← Nat.mul_add, ← Nat.mul_succ]; congr 1; omega
        omega
      rw [this, Nat.mul_add_mod, Nat.mod_eq_of_lt (show m - 1 - x % m < m by omega)]
    case SHL =>
      obtain ⟨s, hs1⟩ := hc.unary (by simp [ho])
      simp only [Means, ho, hs1, List.map_cons] at hv
      obtain ⟨k, hk, -, hv⟩ := hv
      have hm : s ∈ (V n).srcs := by simp [hs1]
      refine agree_op ih' ?_
      simp only [opMeaning, ho, hk, hs1, List.map_cons, List.map_nil, Option.some.injEq]
      rw [(hs.2 s hm).number, (hs.2 s hm).1, number_unsigned hs.1, hv, Nat.mod_mod_of_dvd _ h64]
      unfold pattern
      norm_cast
      rw [Nat.mod_mul_mod]
      exact Int.toNat_natCast _
    case SHR =>
      obtain ⟨s, hs1⟩ := hc.unary (by simp [ho])
      simp only [Means, ho, hs1, List.map_cons] at hv
      obtain ⟨k, hk, -, hv⟩ := hv
      have hm : s ∈ (V n).srcs := by simp [hs1]
      refine agree_op ih' ?_
      simp only [opMeaning, ho, hk, hs1, List.map_cons, List.map_nil, Option.some.injEq]
      rw [hmod s hm (ha.2 s hm), (hs s hm).number, number_unsigned ha.1, hv]
      unfold pattern
      norm_cast
    case ADD =>
      obtain ⟨a, b, hab⟩ := hc.binary (by simp [ho])
      refine agree_op ih' ?_
      simp only [opMeaning, ho, hab, List.map_cons, List.map_nil, Option.some.injEq]
      refine modular_pattern hw (ha a (by simp [hab])) (ha b (by simp [hab])) (fun x y => x + y)
        (fun m x x' y y' h1 h2 => Int.ModEq.add h1 h2) ?_
      have htk := (K.supp n hn).1.2.2
      cases ht : (V n).ty with
      | fixed sg i f => cases sg <;> simp only [Means, ho, hab, ht, List.map_cons] at hv
                        · exact .inl hv
                        · exact .inr hv
      | float e f => exact absurd ht (htk e f)
      | rawBits w => simp only [Means, ho, hab, ht, List.map_cons] at hv
    case SUB =>
      obtain ⟨a, b, hab⟩ := hc.binary (by simp [ho])
      refine agree_op ih' ?_
      simp only [opMeaning, ho, hab, List.map_cons, List.map_nil, Option.some.injEq]
      refine modular_pattern hw (ha a (by simp [hab])) (ha b (by simp [hab])) (fun x y => x - y)
        (fun m x x' y y' h1 h2 => Int.ModEq.sub h1 h2) ?_
      have htk := (K.supp n hn).1.2.2
      cases ht : (V n).ty with
      | fixed sg i f => cases sg <;> simp only [Means, ho, hab, ht, List.map_cons] at hv
                        · exact .inl hv
                        · exact .inr hv
      | float e f => exact absurd ht (htk e f)
      | rawBits w => simp only [Means, ho, hab, ht, List.map_cons] at hv
    case MUL =>
      obtain ⟨a, b, hab⟩ := hc.binary (by simp [ho])
      refine agree_op ih' ?_
      simp only [opMeaning, ho, hab, List.map_cons, List.map_nil, Option.some.injEq]
      refine modular_pattern hw (ha a (by simp [hab])) (ha b (by simp [hab])) (fun x y => x * y)
        (fun m x x' y y' h1 h2 => Int.ModEq.mul h1 h2) ?_
      have htk := (K.supp n hn).1.2.2
      cases ht : (V n).ty with
      | fixed sg i f => cases sg <;> simp only [Means, ho, hab, ht, List.map_cons] at hv
                        · exact .inl hv
                        · exact .inr hv
      | float e f => exact absurd ht (htk e f)
      | rawBits w => simp only [Means, ho, hab, ht, List.map_cons] at hv
    case AND =>
      obtain ⟨a, b, hab⟩ := hc.binary (by simp [ho])
      simp only [Means, ho, hab, List.map_cons] at hv
      refine agree_op ih' ?_
      simp only [opMeaning, ho, hab, List.map_cons, List.map_nil, Option.some.injEq]
      have ma : a ∈ (V n).srcs := by simp [hab]
      have mb : b ∈ (V n).srcs := by simp [hab]
      rw [bits_and hv]
      rcases ha with ha | ha
      · rw [ha a ma, ha b mb, Nat.and_mod_two_pow]
      · rw [hmod a ma (ha a ma), hmod b mb (ha b mb), Nat.mod_eq_of_lt]
        have h1 := hex a ma (ha a ma)
        have h3 := (hs.2 a b hab).2.2
        exact Nat.lt_of_le_of_lt Nat.and_le_left (Nat.lt_of_lt_of_le h1 (Nat.pow_le_pow_right (by decide) (by omega)))
    case OR =>
      obtain ⟨a, b, hab⟩ := hc.binary (by simp [ho])
      simp only [Means, ho, hab, List.map_cons] at hv
      refine agree_op ih' ?_
      simp only [opMeaning, ho, hab, List.map_cons, List.map_nil, Option.some.injEq]
      have ma : a ∈ (V n).srcs := by simp [hab]
      have mb : b ∈ (V n).srcs := by simp [hab]
      rw [bits_or hv]
      rcases ha with ha | ha
      · rw [ha a ma, ha b mb, Nat.or_mod_two_pow]
      · rw [hmod a ma (ha a ma), hmod b mb (ha b mb), Nat.mod_eq_of_lt]
        have h1 := hex a ma (ha a ma)
        have h2 := hex b mb (ha b mb)
        have h3 := (hs.2 a b hab).2.2
        exact Nat.or_lt_two_pow (Nat.lt_of_lt_of_le h1 (Nat.pow_le_pow_right (by decide) (by omega)))
          (Nat.lt_of_lt_of_le h2 (Nat.pow_le_pow_right (by decide) (by omega)))
    case XOR =>
      obtain ⟨a, b, hab⟩ := hc.binary (by simp [ho])
      simp only [Means, ho, hab, List.map_cons] at hv
      refine agree_op ih' ?_
      simp only [opMeaning, ho, hab, List.map_cons, List.map_nil, Option.some.injEq]
      have ma : a ∈ (V n).srcs := by simp [hab]
      have mb : b ∈ (V n).srcs := by simp [hab]
      rw [bits_xor hv]
      rcases ha with ha | ha
      · rw [ha a ma, ha b mb, Nat.xor_mod_two_pow]
      · rw [hmod a ma (ha a ma), hmod b mb (ha b mb), Nat.mod_eq_of_lt]
        have h1 := hex a ma (ha a ma)
        have h2 := hex b mb (ha b mb)
        have h3 := (hs.2 a b hab).2.2
        exact Nat.xor_lt_two_pow (Nat.lt_of_lt_of_le h1 (Nat.pow_le_pow_right (by decide) (by omega)))
          (Nat.lt_of_lt_of_le h2 (Nat.pow_le_pow_right (by decide) (by omega)))
    all_goals first
      | (exact absurd ha id)
      | (obtain ⟨a, b, hab⟩ := hc.binary (by simp [ho])
         have ma : a ∈ (V n).srcs := by simp [hab]
         have mb : b ∈ (V n).srcs := by simp [hab]
         have hb := (K.shape n hn).comp (by simp [ho, OpType.isComparison])
         have hf : (V n).ty = .fixed false 1 0 := by rw [hb]; rfl
         simp only [Means, ho, hf, hab, List.map_cons, List.map_nil] at hv
         refine agree_op ih' ?_
         simp only [opMeaning, ho, hab, List.map_cons, List.map_nil, Option.some.injEq]
         rw [hmod a ma (ha a ma).1, hmod b mb (ha b mb).1, number_unsigned (ha a ma).2, number_unsigned (ha b mb).2,
           isBool_cases hv]
         have hwd : width (V n).ty = 1 := by rw [hf]; rfl
         rw [hwd, Nat.mod_eq_of_lt (truth_lt _)]
         first
           | (congr 1; simp; done)
           | (congr 1; simp [BitVec.toNat_eq]; done))

/-! ### The claim -/

/-- The simulator predicts the circuit: whatever input document of at most 200 steps is simulated (with any iteration order `it` of the
node map), if the input ports of the circuit are fed the values of the document, then in every run of the circuit, whatever its registers
contain at power-up, every output port `name` shows in cycle `delay name + t` the bits that the value change dump contains for the output
in step `t`. -/
def Predicts (F : FloatOps) (V : Nat → NodeV) (nodes order : List Nat) (cells : Nat → Cell) (size : Nat) : Prop :=
  ∃ (wire : Nat → Nat) (delay : Nat → Nat),
    (∀ n ∈ nodes, (V n).op = .OUT → wire n < size ∧
      ∃ s, cells (wire n) = .output (V n).name (Hw.convertType (hwTy (V n).ty)) (some s)) ∧
    ∀ (it : List Nat) (doc : List Block) (lines : List (List Char)) (vcd : Vcd), it.Perm order → Renders doc lines →
      (∃ b ∈ doc, b ≠ []) → doc.length ≤ 200 → simulateLines F V order it lines = .ok (some vcd) →
      ∀ (port : String → Nat → Nat) (oob : Hw.FVal → List Hw.FVal → Hw.FVal) (reg : Nat → Nat → Nat), PortsOK V nodes port → OobOK oob →
        (∀ t < doc.length, SameInputs V nodes port t (docTick doc t)) →
        vcd.ticks.length = doc.length ∧ (∃ σ, CircuitRun cells size port oob reg σ) ∧
        ∀ σ, CircuitRun cells size port oob reg σ → ∀ (t : Nat) (r : TickRec), vcd.ticks[t]? = some r →
          ∀ n ∈ nodes, (V n).op = .OUT → ∃ bits : List Char, (idOf V it n, bits) ∈ r.values ∧
            bits.length = (σ (wire n) (delay n + t)).w ∧ (∀ c ∈ bits, c = '0' ∨ c = '1') ∧
            binVal bits = (σ (wire n) (delay n + t)).n

theorem totalBits_width {ty : DFType} (h : TypeOK ty) : ty.totalBits = width ty := by
  obtain ⟨h1, h2, h3⟩ := h
  cases ty with
  | fixed s i f => exact Nat.mod_eq_of_lt h2
  | float e f => exact absurd rfl (h3 e f)
  | rawBits b => rfl

theorem forall₂_mem_left {α β : Type} {R : α → β → Prop} {l : List α} {m : List β} (h : List.Forall₂ R l m) {a : α} (ha : a ∈ l) :
    ∃ b ∈ m, R a b := by
  induction h with
  | nil => cases ha
  | @cons x y l m hxy _ ih =>
    rcases List.mem_cons.mp ha with rfl | ha
    · exact ⟨y, by simp, hxy⟩
    · obtain ⟨b, hb, hr⟩ := ih ha
      exact ⟨b, List.mem_cons_of_mem _ hb, hr⟩

theorem noWrap_of_agree {F : FloatOps} {V : Nat → NodeV} {L : Nat → Nat} {nodes order : List Nat} (K : Comparable V L nodes)
    (hperm : order.Perm nodes) {port : String → Nat → Nat} {t : Nat} {inp : TickIn} (hp : PortsOK V nodes port)
    (hin : SameInputs V nodes port t inp) : NoWrap F V inp order := by
  intro n hn ho s hs hd
  have hn' := hperm.mem_iff.mp hn
  obtain ⟨-, c, al, he⟩ := (K.compl n hn').mux ho
  rw [he] at hs
  cases hs
  have ha := (K.agree n hn').2
  simp only [ho] at ha
  obtain ⟨h1, h2⟩ := ha _ _ he
  have := exact_lt K hp.fits hin hd (K.closed n hn' s (by simp [he])) h1
  have h3 : 2 ^ width (V s).ty ≤ 2 ^ 63 := Nat.pow_le_pow_right (by decide) (by omega)
  have h4 : (BitVec.allOnes 64).toNat = 2 ^ 64 - 1 := by decide
  omega

theorem Comparable.predicts {F : FloatOps} {V : Nat → NodeV} {L : Nat → Nat} {nodes order : List Nat} (K : Comparable V L nodes)
    (hperm : order.Perm nodes) (ht : TopoOrder V order) {cells : Nat → Cell} {size : Nat} (hC : Computes V nodes cells size) :
    Predicts F V nodes order cells size := by
  obtain ⟨wire, delay, h1, h2⟩ := hC
  refine ⟨wire, delay, h1, fun it doc lines vcd hit hdoc hne hlen hv port oob reg hp ho hin => ?_⟩
  have hs : ∀ n ∈ order, (V n).Shape := fun n hn => K.shape n (hperm.mem_iff.mp hn)
  obtain ⟨-, d2, -, d4⟩ := simulate_document F V order it ht hs hit doc lines hdoc hne hlen
    (fun i hi => noWrap_of_agree K hperm hp (hin i hi)) vcd hv
  obtain ⟨c1, c2⟩ := h2 port oob reg hp ho
  refine ⟨d2, c1, fun σ hr t r htr n hn hop => ?_⟩
  have htl : t < doc.length := by rw [← d2]; exact (List.getElem?_eq_some_iff.mp htr).1
  obtain ⟨-, hf⟩ := d4 t r htr
  obtain ⟨p, hpm, he, v, hd, hb⟩ := forall₂_mem_left hf (hit.mem_iff.mpr (hperm.mem_iff.mpr hn))
  have hst := denotes_stream K hp (hin t htl) hd hn
  have hσ := c2 σ hr n hn hop t _ hst
  obtain ⟨b1, b2, b3⟩ := hb
  rw [totalBits_width (K.supp n hn).1] at b1 b3
  refine ⟨p.2, ?_, ?_, b2, ?_⟩
  · rw [← he]; exact hpm
  · rw [hσ]; exact b1
  · rw [hσ]; exact b3

section
variable {F : FloatOps} {w : World} {g : KGraph} {G G' : TopSort.Graph Nat}

/-- **C59, ASAP scheduling.**  For every kernel built by any sensible history of API calls, finished, within what the back end handles and
made of operators on which 64-bit simulation and the declared widths agree: compiled (with any enumeration of the hash sets, any latency
configuration, any order of the buffer map) and simulated (with any, possibly different, enumeration), the simulator predicts the
circuit. -/
theorem asap_simulation_predicts (h : Hist F Proper World.init w) (hf : Finished w g) (he : Enumeration w g G) (he' : Enumeration w g G')
    (file : Option Config.JsonDoc) (H : Handled w.view (fun n => nodeLatency file (w.view n)) g.nodes)
    (A : ∀ n ∈ g.nodes, SimAgrees w.view n) (F' : FloatOps) :
    ∃ order prog sim, TopSort.topSort G = .ok order ∧ buildBody w.view order = .ok prog ∧ TopSort.topSort G' = .ok sim ∧
      ∀ bs, bs.Perm (Sched.buffersFor (progOf prog) (latOf file (opsOf prog)) (Sched.asap (progOf prog) (latOf file (opsOf prog))).time) →
        ∃ X, Sched.applySchedule (progOf prog) bs = .ok X ∧
          ∀ blk, BlockOrder X blk → Predicts F' w.view g.nodes sim (circuitOf (opsOf prog) X (latOf file (opsOf prog)) blk) X.size := by
  obtain ⟨order, prog, h1, h2, h3⟩ := asap_compile_computes h hf he file H
  obtain ⟨sim, s1, s2, s3, s4, s5⟩ := finished_kernel_is_processable h hf he'
  have K : Comparable w.view (fun n => nodeLatency file (w.view n)) g.nodes :=
    ⟨fun n hn => s4 n (s2.mem_iff.mpr hn), fun n hn => s5 n (s2.mem_iff.mpr hn), H.supp, A,
      fun n hn s hs => s2.mem_iff.mp (srcs_in_order s3 (s2.mem_iff.mpr hn) hs).1⟩
  refine ⟨order, prog, sim, h1, h2, s1, fun bs hbs => ?_⟩
  obtain ⟨X, x1, x2⟩ := h3 bs hbs
  exact ⟨X, x1, fun blk hblk => K.predicts s2 s3 (x2 blk hblk)⟩

/-- **C59, linear programming.** -/
theorem lp_simulation_predicts (h : Hist F Proper World.init w) (hf : Finished w g) (he : Enumeration w g G) (he' : Enumeration w g G')
    (file : Option Config.JsonDoc) (H : Handled w.view (fun n => nodeLatency file (w.view n)) g.nodes)
    (A : ∀ n ∈ g.nodes, SimAgrees w.view n) (F' : FloatOps) :
    ∃ order prog sim, TopSort.topSort G = .ok order ∧ buildBody w.view order = .ok prog ∧ TopSort.topSort G' = .ok sim ∧
      ∀ x, Sched.Optimal (Sched.lpBuild (progOf prog) (latOf file (opsOf prog))) x →
        Sched.Extreme (Sched.lpBuild (progOf prog) (latOf file (opsOf prog))) x →
      ∀ perm : List (Sched.Chan × Int) → List (Sched.Chan × Int), (∀ l, (perm l).Perm l) →
        ∃ r, Sched.lpRun (progOf prog) (latOf file (opsOf prog)) (.solved x) perm = .ok r ∧
          ∀ blk, BlockOrder r.prog blk →
            Predicts F' w.view g.nodes sim (circuitOf (opsOf prog) r.prog (latOf file (opsOf prog)) blk) r.prog.size := by
  obtain ⟨order, prog, h1, h2, h3⟩ := lp_compile_computes h hf he file H
  obtain ⟨sim, s1, s2, s3, s4, s5⟩ := finished_kernel_is_processable h hf he'
  have K : Comparable w.view (fun n => nodeLatency file (w.view n)) g.nodes :=
    ⟨fun n hn => s4 n (s2.mem_iff.mpr hn), fun n hn => s5 n (s2.mem_iff.mpr hn), H.supp, A,
      fun n hn s hs => s2.mem_iff.mp (srcs_in_order s3 (s2.mem_iff.mpr hn) hs).1⟩
  refine ⟨order, prog, sim, h1, h2, s1, fun x hx hx' perm hperm => ?_⟩
  obtain ⟨r, r1, r2⟩ := h3 x hx hx' perm hperm
  exact ⟨r, r1, fun blk hblk => K.predicts s2 s3 (r2 blk hblk)⟩

/-- **C59, combinational pipelining.** -/
theorem comb_simulation_predicts (h : Hist F Proper World.init w) (hf : Finished w g) (he : Enumeration w g G) (he' : Enumeration w g G')
    (H : Handled w.view (fun _ => 0) g.nodes) (hof : ∀ n ∈ g.nodes, (w.view n).op ≠ .OFFSET)
    (A : ∀ n ∈ g.nodes, SimAgrees w.view n) (F' : FloatOps) :
    ∃ order prog sim, TopSort.topSort G = .ok order ∧ buildBody w.view order = .ok prog ∧ TopSort.topSort G' = .ok sim ∧
      ∀ (A : Sched.FloatArith) (stages : Nat), stages < 2^31 →
      ∀ perm : List (Sched.Chan × Int) → List (Sched.Chan × Int), (∀ l, (perm l).Perm l) →
      ∀ X, Sched.combPipeline A stages perm (progOf prog) = .ok X →
        ∀ blk, BlockOrder X blk → Predicts F' w.view g.nodes sim (circuitOf (opsOf prog) X (fun _ => 0) blk) X.size := by
  obtain ⟨order, prog, h1, h2, h3⟩ := comb_compile_computes h hf he H hof
  obtain ⟨sim, s1, s2, s3, s4, s5⟩ := finished_kernel_is_processable h hf he'
  have K : Comparable w.view (fun _ => 0) g.nodes :=
    ⟨fun n hn => s4 n (s2.mem_iff.mpr hn), fun n hn => s5 n (s2.mem_iff.mpr hn), H.supp, A,
      fun n hn s hs => s2.mem_iff.mp (srcs_in_order s3 (s2.mem_iff.mpr hn) hs).1⟩
  exact ⟨order, prog, sim, h1, h2, s1, fun AA stages hs perm hperm X hX blk hblk =>
    K.predicts s2 s3 (h3 AA stages hs perm hperm X hX blk hblk)⟩

end

/-! ### Non-vacuity: the kernel `y = x + x` -/

theorem ex_agrees (F : FloatOps) : ∀ n ∈ exGraph.nodes, SimAgrees (after F exCmds).view n := by
  obtain ⟨v0, v4, v5⟩ := ex_views F
  intro n hn
  have hn : n ∈ [5, 0, 4] := hn
  have hn : n = 5 ∨ n = 0 ∨ n = 4 := by simpa using hn
  have hw : width u8t = 8 := rfl
  rcases hn with rfl | rfl | rfl
  · refine ⟨by rw [v5]; decide, ?_⟩; rw [v5]; trivial
  · refine ⟨by rw [v0]; decide, ?_⟩; rw [v0]; trivial
  · refine ⟨by rw [v4]; decide, ?_⟩
    rw [v4]
    intro s hs
    simp [NodeV.srcs] at hs
    subst hs
    rw [v0]

def docX : List Block := [[("x", 3)], [("x", 200)]]
def linesX : List (List Char) := ["x 3".toList, [], "x 0xc8".toList]

theorem linesX_render : Renders docX linesX := by
  have h3 : HexNum ([] ++ ['3']) (16 * 0 + 3) := .snoc .nil (.inl rfl)
  have hc8 : HexNum (([] ++ ['c']) ++ ['8']) (16 * (16 * 0 + 12) + 8) := .snoc (.snoc .nil (.inl rfl)) (.inl rfl)
  refine .more (ls := ["x 3".toList]) (.cons ⟨by decide, by decide, by decide, ['3'], ⟨['3'], by simp, h3, .inl rfl⟩, rfl⟩ .nil) (.last ?_)
  exact .cons ⟨by decide, by decide, by decide, ['0', 'x', 'c', '8'], ⟨['c', '8'], by simp, hc8, .inr (.inl rfl)⟩, rfl⟩ .nil

def portX : String → Nat → Nat := fun _ t => if t = 0 then 3 else 200

/-- Every hypothesis of C59 is met by `y = x + x` and the document above, for every latency configuration, the simulator accepts it, the
circuit runs, and shows what the dump contains. -/
theorem ex_predicts (F : FloatOps) (file : Option Config.JsonDoc) :
    ∃ order prog sim X vcd, TopSort.topSort ((after F exCmds).sortGraph exGraph) = .ok order ∧
      buildBody (after F exCmds).view order = .ok prog ∧
      TopSort.topSort ((after F exCmds).sortGraph exGraph) = .ok sim ∧
      Sched.applySchedule (progOf prog) (Sched.buffersFor (progOf prog) (latOf file (opsOf prog)) (Sched.asap (progOf prog) (latOf file (opsOf prog))).time) = .ok X ∧
      simulateLines F (after F exCmds).view sim sim linesX = .ok (some vcd) ∧
      ∃ wire delay : Nat, ∀ reg, ∃ σ, CircuitRun (circuitOf (opsOf prog) X (latOf file (opsOf prog)) (List.range X.size)) X.size portX
          (fun _ alts => alts.headD ⟨false, 0, 0⟩) reg σ ∧
        ∀ t r, vcd.ticks[t]? = some r → ∃ bits : List Char, (idOf (after F exCmds).view sim 5, bits) ∈ r.values ∧
          binVal bits = (σ wire (delay + t)).n := by
  obtain ⟨hh, hf, he⟩ := ex_finished F
  obtain ⟨v0, v4, v5⟩ := ex_views F
  obtain ⟨sim', t1, t2, t3, t4, t5⟩ := finished_kernel_is_processable hh hf he
  obtain ⟨order, prog, sim, h1, h2, h3, h4⟩ := asap_simulation_predicts hh hf he he file (ex_handled F _) (ex_agrees F) F
  have e : sim' = sim := by rw [h3] at t1; cases t1; rfl
  subst e
  obtain ⟨X, x1, x2⟩ := h4 _ (List.Perm.refl _)
  obtain ⟨wire, delay, -, h7⟩ := x2 (List.range X.size) ⟨List.nodup_range, fun v => List.mem_range⟩
  have hn : ∀ n ∈ exGraph.nodes, n = 5 ∨ n = 0 ∨ n = 4 := by
    intro n hn
    have hn : n ∈ [5, 0, 4] := hn
    simpa using hn
  have hpx : ∀ s t, portX s t < 256 := by intro s t; unfold portX; split <;> decide
  have hp : PortsOK (after F exCmds).view exGraph.nodes portX := by
    refine ⟨?_, ?_⟩
    · intro n h ho t
      rcases hn n h with rfl | rfl | rfl
      · rw [v5] at ho; cases ho
      · rw [v0]; exact hpx _ _
      · rw [v4] at ho; cases ho
    · intro n h ho hk t
      rcases hn n h with rfl | rfl | rfl
      · rw [v5] at ho; cases ho
      · rw [v0] at hk; exact absurd rfl hk
      · rw [v4] at ho; cases ho
  have hin : ∀ t < docX.length, SameInputs (after F exCmds).view exGraph.nodes portX t (docTick docX t) := by
    intro t ht n h ho
    have ht : t = 0 ∨ t = 1 := by simp [docX] at ht; omega
    rcases hn n h with rfl | rfl | rfl
    · rw [v5] at ho; cases ho
    · rw [v0]; rcases ht with rfl | rfl <;> rfl
    · rw [v4] at ho; cases ho
  have hob : OobOK (fun _ alts => alts.headD ⟨false, 0, 0⟩) := by
    intro s w c alts hne ha
    cases alts with
    | nil => exact absurd rfl hne
    | cons a l => exact ha a (by simp)
  have hden : ∀ i < docX.length, ∀ n ∈ sim', ∃ v, Denotes F (after F exCmds).view (docTick docX i) n v := by
    intro i hi n hns
    have hi : i = 0 ∨ i = 1 := by simp [docX] at hi; omega
    have d0 : ∀ x : Word, docTick docX i "x" = .ok x → Denotes F (after F exCmds).view (docTick docX i) 0 x := by
      intro x hx
      refine .node 0 (fun _ => 0) x ?_ ?_
      · intro s hs; rw [v0] at hs; simp [NodeV.srcs] at hs
      · rw [v0]; exact hx
    obtain ⟨x, hx⟩ : ∃ x, docTick docX i "x" = .ok x := by rcases hi with rfl | rfl <;> exact ⟨_, rfl⟩
    have d4 : Denotes F (after F exCmds).view (docTick docX i) 4 (x + x) := by
      refine .node 4 (fun _ => x) _ ?_ ?_
      · intro s hs; rw [v4] at hs; simp [NodeV.srcs] at hs; subst hs; exact d0 x hx
      · rw [v4]
        show IsUnsigned (x + x) (x.toNat + x.toNat)
        unfold IsUnsigned
        rw [BitVec.toNat_add]; push_cast; rfl
    rcases hn n (t2.mem_iff.mp hns) with rfl | rfl | rfl
    · refine ⟨x + x, .node 5 (fun _ => x + x) _ ?_ ?_⟩
      · intro s hs; rw [v5] at hs; simp [NodeV.srcs] at hs; subst hs; exact d4
      · rw [v5]; rfl
    · exact ⟨_, d0 x hx⟩
    · exact ⟨_, d4⟩
  have hnm : ∀ i < docX.length, NoWrap F (after F exCmds).view (docTick docX i) sim' := by
    intro i _ n hns ho
    rcases hn n (t2.mem_iff.mp hns) with rfl | rfl | rfl
    · rw [v5] at ho; cases ho
    · rw [v0] at ho; cases ho
    · rw [v4] at ho; cases ho
  obtain ⟨vcd, hv⟩ := simulate_document_succeeds F (after F exCmds).view sim' sim' t3 t5 (List.Perm.refl _) docX linesX linesX_render
    ⟨_, List.mem_cons_self, by simp⟩ (by decide) hnm hden (by
      intro n hns
      rcases hn n (t2.mem_iff.mp hns) with rfl | rfl | rfl
      · rw [v5]; decide
      · rw [v0]; decide
      · rw [v4]; decide)
  refine ⟨order, prog, sim', X, vcd, h1, h2, h3, x1, hv, wire 5, delay 5, fun reg => ?_⟩
  obtain ⟨l1, ⟨σ, l2⟩, l3⟩ := h7 sim' docX linesX vcd (List.Perm.refl _) linesX_render ⟨_, List.mem_cons_self, by simp⟩ (by decide) hv portX
    (fun _ alts => alts.headD ⟨false, 0, 0⟩) reg hp hob hin
  refine ⟨σ, l2, fun t r htr => ?_⟩
  obtain ⟨bits, b1, b2, b3, b4⟩ := l3 σ l2 t r htr 5 (by decide) (by rw [v5])
  exact ⟨bits, b1, b4⟩

end Verif.Flow
