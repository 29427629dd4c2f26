import Verif.Flow.Bound
import Verif.Flow.Agree
/-
The streams of `HwVal`: they are patterns of their types, there is at most one value per element, and in kernels without offsets and with
enough alternatives every element is defined.
-/
namespace Verif.Flow
open Verif.Dfcxx

theorem hwShl_lt (ty : DFType) (k : Nat) {n : Nat} (hw : 0 < width ty) (h : n < 2 ^ width ty) : hwShl ty k n < 2 ^ width ty := by
  unfold hwShl
  split
  · have e : (2 : Nat) ^ width ty = 2 * 2 ^ (width ty - 1) := by
      rw [← Nat.pow_succ']
      congr 1; omega
    have hp : 0 < 2 ^ (width ty - 1) := by positivity
    have h1 : n / 2 ^ (width ty - 1) < 2 := by
      rw [Nat.div_lt_iff_lt_mul hp]; omega
    have h2 := Nat.mod_lt (n * 2 ^ k) hp
    have h3 : n / 2 ^ (width ty - 1) * 2 ^ (width ty - 1) ≤ 1 * 2 ^ (width ty - 1) := Nat.mul_le_mul_right _ (by omega)
    omega
  · exact Nat.mod_lt _ (by positivity)

/-- What the hardware of an operator computes is a pattern of its type. -/
theorem hwMeaning_lt {V : Nat → NodeV} {L n : Nat} (hs : Produced V L n) {vals : Nat → Nat} (hv : ∀ s ∈ (V n).srcs, vals s < 2 ^ width (V s).ty) {a : Nat}
    (h : hwMeaning (V n).op (V n).data (V n).ty ((V n).srcs.map fun s => ((V s).ty, vals s)) = some a) : a < 2 ^ width (V n).ty := by
  obtain ⟨⟨hpos, -⟩, hs⟩ := hs
  have pw : ∀ {s k : Nat}, s ∈ (V n).srcs → width (V s).ty ≤ k → vals s < 2 ^ k :=
    fun hm hk => Nat.lt_of_lt_of_le (hv _ hm) (Nat.pow_le_pow_right (by omega) hk)
  cases ho : (V n).op <;> rw [ho] at h hs <;> simp only at hs
  case BITS =>
    match hsr : (V n).srcs, hd : (V n).data with
    | [x], .bitsRange l r =>
      rw [hsr, hd] at h
      simp only [hwMeaning, List.map_cons, List.map_nil, Option.some.injEq] at h
      obtain ⟨-, -, hw, -⟩ := hs l r hd
      rw [← h, hw]
      exact Nat.mod_lt _ (by positivity)
    | [], _ => rw [hsr] at h; simp [hwMeaning] at h
    | _ :: _ :: _, _ => rw [hsr] at h; simp [hwMeaning] at h
    | [_], .none => rw [hsr, hd] at h; simp [hwMeaning] at h
    | [_], .offset _ => rw [hsr, hd] at h; simp [hwMeaning] at h
    | [_], .muxId _ => rw [hsr, hd] at h; simp [hwMeaning] at h
    | [_], .bitShift _ => rw [hsr, hd] at h; simp [hwMeaning] at h
  case SHL =>
    match hsr : (V n).srcs, hd : (V n).data with
    | [x], .bitShift k =>
      rw [hsr, hd] at h
      simp only [hwMeaning, List.map_cons, List.map_nil, Option.some.injEq] at h
      rw [← h]
      have hx : x ∈ (V n).srcs := by rw [hsr]; simp
      exact hwShl_lt _ _ hpos (by rw [← (hs.2 x hx).1]; exact hv x hx)
    | [], _ => rw [hsr] at h; simp [hwMeaning] at h
    | _ :: _ :: _, _ => rw [hsr] at h; simp [hwMeaning] at h
    | [_], .none => rw [hsr, hd] at h; simp [hwMeaning] at h
    | [_], .offset _ => rw [hsr, hd] at h; simp [hwMeaning] at h
    | [_], .muxId _ => rw [hsr, hd] at h; simp [hwMeaning] at h
    | [_], .bitsRange _ _ => rw [hsr, hd] at h; simp [hwMeaning] at h
  case SHR =>
    match hsr : (V n).srcs, hd : (V n).data with
    | [x], .bitShift k =>
      rw [hsr, hd] at h
      simp only [hwMeaning, List.map_cons, List.map_nil, Option.some.injEq] at h
      rw [← h]
      exact pattern_lt _ _
    | [], _ => rw [hsr] at h; simp [hwMeaning] at h
    | _ :: _ :: _, _ => rw [hsr] at h; simp [hwMeaning] at h
    | [_], .none => rw [hsr, hd] at h; simp [hwMeaning] at h
    | [_], .offset _ => rw [hsr, hd] at h; simp [hwMeaning] at h
    | [_], .muxId _ => rw [hsr, hd] at h; simp [hwMeaning] at h
    | [_], .bitsRange _ _ => rw [hsr, hd] at h; simp [hwMeaning] at h
  case CAST | NOT =>
    match hsr : (V n).srcs with
    | [x] =>
      rw [hsr] at h
      simp only [hwMeaning, List.map_cons, List.map_nil, Option.some.injEq] at h
      rw [← h]
      first
        | exact pattern_lt _ _
        | (have : 0 < 2 ^ width (V n).ty := by positivity
           omega)
    | [] => rw [hsr] at h; simp [hwMeaning] at h
    | _ :: _ :: _ => rw [hsr] at h; simp [hwMeaning] at h
  case IN | OUT | CONST | MUX | OFFSET => simp [hwMeaning] at h
  all_goals
    match hsr : (V n).srcs with
    | [] => rw [hsr] at h; simp [hwMeaning] at h
    | [_] => rw [hsr] at h; simp [hwMeaning] at h
    | _ :: _ :: _ :: _ => rw [hsr] at h; simp [hwMeaning] at h
    | [x, y] =>
      have hx : x ∈ (V n).srcs := by rw [hsr]; simp
      have hy : y ∈ (V n).srcs := by rw [hsr]; simp
      rw [hsr] at h
      simp only [hwMeaning, List.map_cons, List.map_nil, Option.some.injEq] at h
      rw [← h]
      first
        | exact pattern_lt _ _
        | exact bit_lt _ hpos
        | (have hw := (hs.2 x y hsr).2.2
           first
             | exact Nat.and_lt_two_pow _ (pw hy (by omega))
             | exact Nat.or_lt_two_pow (pw hx (by omega)) (pw hy (by omega))
             | exact Nat.xor_lt_two_pow (pw hx (by omega)) (pw hy (by omega)))
        | (have hw := (hs.2 x y hsr).2
           rw [hw, Nat.pow_add]
           have h1 := hv x hx
           have h2 := hv y hy
           calc vals x * 2 ^ width (V y).ty + vals y < vals x * 2 ^ width (V y).ty + 2 ^ width (V y).ty := by omega
             _ = (vals x + 1) * 2 ^ width (V y).ty := by ring
             _ ≤ 2 ^ width (V x).ty * 2 ^ width (V y).ty := Nat.mul_le_mul_right _ h1)

/-- Every element of every stream is a pattern of the node's type, if inputs are fed such patterns. -/
theorem hwVal_lt {V : Nat → NodeV} {L : Nat → Nat} {order : List Nat} (hto : TopoOrder V order) (hs : ∀ n ∈ order, Produced V (L n) n)
    (hc : ∀ n ∈ order, (V n).op = .OFFSET → ∀ s ∈ (V n).srcs, width (V s).ty = width (V n).ty)
    {inp : String → Nat → Nat} (hin : ∀ n ∈ order, (V n).op = .IN → ∀ t, inp (V n).name t < 2 ^ width (V n).ty) {n : Nat} {t : Int} {a : Nat}
    (h : HwVal V inp n t a) : n ∈ order → a < 2 ^ width (V n).ty := by
  induction h with
  | input h1 h2 => exact fun hn => hin _ hn h1 _
  | scalar h1 h2 => exact fun hn => hin _ hn h1 _
  | const h1 h2 => exact fun _ => pattern_lt _ _
  | out h1 h2 h3 ih =>
    intro hn
    have := (hs _ hn).2
    rw [h1] at this
    simp only at this
    have hm : _ ∈ (V _).srcs := h2 ▸ List.mem_singleton_self _
    rw [← (this _ hm).1]
    exact ih (srcs_in_order hto hn hm).1
  | offset h1 h2 h3 h4 ih =>
    intro hn
    have hm : _ ∈ (V _).srcs := h3 ▸ List.mem_singleton_self _
    rw [← hc _ hn h1 _ hm]
    exact ih (srcs_in_order hto hn hm).1
  | mux h1 h2 h3 h4 h5 h6 _ ih =>
    intro hn
    have := (hs _ hn).2
    rw [h1] at this
    simp only at this
    have hm := List.mem_of_getElem? h5
    rw [← ((this _ _ h2).2.2 _ hm).1]
    exact ih (srcs_in_order hto hn (by rw [h2]; simp [hm])).1
  | op vals h1 h2 h3 ih =>
    intro hn
    exact hwMeaning_lt (hs _ hn) (fun s hm => ih s hm (srcs_in_order hto hn hm).1) h3

theorem hwMeaning_isOp {op : OpType} {data : NodeData} {ty : DFType} {args : List (DFType × Nat)} {a : Nat}
    (h : hwMeaning op data ty args = some a) : op ≠ .IN ∧ op ≠ .CONST ∧ op ≠ .OUT ∧ op ≠ .OFFSET ∧ op ≠ .MUX := by
  cases op <;> first
    | (refine ⟨?_, ?_, ?_, ?_, ?_⟩ <;> (intro e; cases e); done)
    | (simp [hwMeaning] at h)

/-- An element has at most one value. -/
theorem hwVal_unique {V : Nat → NodeV} {inp : String → Nat → Nat} {n : Nat} {t : Int} {a b : Nat} (h : HwVal V inp n t a)
    (h' : HwVal V inp n t b) : a = b := by
  induction h generalizing b with
  | @input n k h hk =>
    generalize ht : (k : Int) = t at h'
    cases h' with
    | input h1 h2 => rw [Int.ofNat.inj ht]
    | scalar h1 h2 => exact absurd hk h2
    | const h1 => rw [h] at h1; cases h1
    | out h1 => rw [h] at h1; cases h1
    | offset h1 => rw [h] at h1; cases h1
    | mux h1 => rw [h] at h1; cases h1
    | op _ _ _ ho => exact absurd h (hwMeaning_isOp ho).1
  | scalar h hk =>
    cases h' with
    | input h1 h2 => exact absurd h2 hk
    | scalar h1 h2 => rfl
    | const h1 => rw [h] at h1; cases h1
    | out h1 => rw [h] at h1; cases h1
    | offset h1 => rw [h] at h1; cases h1
    | mux h1 => rw [h] at h1; cases h1
    | op _ _ _ ho => exact absurd h (hwMeaning_isOp ho).1
  | const h hk =>
    cases h' with
    | input h1 h2 => rw [h] at h1; cases h1
    | scalar h1 h2 => rw [h] at h1; cases h1
    | const h1 h2 => rw [hk] at h2; cases h2; rfl
    | out h1 => rw [h] at h1; cases h1
    | offset h1 => rw [h] at h1; cases h1
    | mux h1 => rw [h] at h1; cases h1
    | op _ _ _ ho => exact absurd h (hwMeaning_isOp ho).2.1
  | out h hs ha ih =>
    cases h' with
    | input h1 h2 => rw [h] at h1; cases h1
    | scalar h1 h2 => rw [h] at h1; cases h1
    | const h1 => rw [h] at h1; cases h1
    | out h1 h2 h3 => rw [hs] at h2; cases h2; exact ih h3
    | offset h1 => rw [h] at h1; cases h1
    | mux h1 => rw [h] at h1; cases h1
    | op _ _ _ ho => exact absurd h (hwMeaning_isOp ho).2.2.1
  | offset h hd hs ha ih =>
    cases h' with
    | input h1 h2 => rw [h] at h1; cases h1
    | scalar h1 h2 => rw [h] at h1; cases h1
    | const h1 => rw [h] at h1; cases h1
    | out h1 => rw [h] at h1; cases h1
    | offset h1 h2 h3 h4 => rw [hs] at h3; cases h3; rw [hd] at h2; cases h2; exact ih h4
    | mux h1 => rw [h] at h1; cases h1
    | op _ _ _ ho => exact absurd h (hwMeaning_isOp ho).2.2.2.1
  | mux h hs ht hc hi ha ihc iha =>
    cases h' with
    | input h1 h2 => rw [h] at h1; cases h1
    | scalar h1 h2 => rw [h] at h1; cases h1
    | const h1 => rw [h] at h1; cases h1
    | out h1 => rw [h] at h1; cases h1
    | offset h1 => rw [h] at h1; cases h1
    | mux h1 h2 h3 h4 h5 h6 =>
      rw [hs] at h2; cases h2
      rw [← ihc h4, hi] at h5; cases h5
      exact iha h6
    | op _ _ _ ho => exact absurd h (hwMeaning_isOp ho).2.2.2.2
  | op vals ht hs ho ih =>
    obtain ⟨o1, o2, o3, o4, o5⟩ := hwMeaning_isOp ho
    cases h' with
    | input h1 h2 => exact absurd h1 o1
    | scalar h1 h2 => exact absurd h1 o1
    | const h1 => exact absurd h1 o2
    | out h1 => exact absurd h1 o3
    | offset h1 => exact absurd h1 o4
    | mux h1 => exact absurd h1 o5
    | op vals' _ hs' ho' =>
      have e : ((V _).srcs.map fun s => ((V s).ty, vals s)) = ((V _).srcs.map fun s => ((V s).ty, vals' s)) :=
        List.map_congr_left fun s hm => by rw [ih s hm (hs' s hm)]
      rw [e, ho'] at ho
      exact (Option.some.inj ho).symm

theorem hwMeaning_defined {V : Nat → NodeV} {L n : Nat} (hc : Complete V n) (hp : Produced V L n)
    (hi : (V n).op ≠ .IN ∧ (V n).op ≠ .CONST ∧ (V n).op ≠ .OUT ∧ (V n).op ≠ .OFFSET ∧ (V n).op ≠ .MUX) (vals : Nat → Nat) :
    ∃ a, hwMeaning (V n).op (V n).data (V n).ty ((V n).srcs.map fun s => ((V s).ty, vals s)) = some a := by
  obtain ⟨-, hp⟩ := hp
  obtain ⟨h1, h2, h3, h4, h5⟩ := hi
  cases ho : (V n).op <;> rw [ho] at hp h1 h2 h3 h4 h5
  case SHL | SHR =>
    obtain ⟨k, hk⟩ := hc.shift (by simp [ho])
    obtain ⟨s, hs⟩ := hc.unary (by simp [ho])
    rw [hk, hs]; exact ⟨_, rfl⟩
  case BITS =>
    obtain ⟨l, r, hk⟩ := hc.bits ho
    obtain ⟨s, hs⟩ := hc.unary (by simp [ho])
    rw [hk, hs]; exact ⟨_, rfl⟩
  case NOT | CAST =>
    obtain ⟨s, hs⟩ := hc.unary (by simp [ho])
    rw [hs]; exact ⟨_, rfl⟩
  all_goals first
    | (exfalso; first | exact hp | exact h1 rfl | exact h2 rfl | exact h3 rfl | exact h4 rfl | exact h5 rfl)
    | (obtain ⟨a, b, hs⟩ := hc.binary (by simp [ho])
       rw [hs]; exact ⟨_, rfl⟩)

/-- In a kernel without offsets whose multiplexers have an alternative for every value of their select, every element of every stream is
defined. -/
theorem hwVal_total {V : Nat → NodeV} {L : Nat → Nat} {order : List Nat} (hto : TopoOrder V order) (hc : ∀ n ∈ order, Complete V n)
    (hs : ∀ n ∈ order, Produced V (L n) n) (hof : ∀ n ∈ order, (V n).op ≠ .OFFSET)
    (hmux : ∀ n ∈ order, (V n).op = .MUX → ∀ c alts, (V n).srcs = c :: alts → 2 ^ width (V c).ty ≤ alts.length)
    {inp : String → Nat → Nat} (hin : ∀ n ∈ order, (V n).op = .IN → ∀ t, inp (V n).name t < 2 ^ width (V n).ty) (t : Nat) :
    ∀ n ∈ order, ∃ a, HwVal V inp n t a := by
  have key : ∀ k, ∀ n ∈ order, order.idxOf n < k → ∃ a, HwVal V inp n t a := by
    intro k
    induction k with
    | zero => intro n _ h; omega
    | succ k ih =>
      intro n hn hk
      have hsrc : ∀ s ∈ (V n).srcs, ∃ a, HwVal V inp s t a := fun s hm => by
        obtain ⟨h1, h2⟩ := srcs_in_order hto hn hm
        exact ih s h1 (by omega)
      by_cases hi : (V n).op = .IN
      · by_cases hk : (V n).kind = .stream
        · exact ⟨_, .input hi hk⟩
        · exact ⟨_, .scalar hi hk⟩
      by_cases hco : (V n).op = .CONST
      · obtain ⟨c, hk⟩ := (hc n hn).const hco
        exact ⟨_, .const hco hk⟩
      by_cases ho : (V n).op = .OUT
      · obtain ⟨s, hsr⟩ := (hc n hn).out ho
        have hsr : (V n).srcs = [s] := by simp [NodeV.srcs, hsr]
        obtain ⟨a, ha⟩ := hsrc s (by simp [hsr])
        exact ⟨a, .out ho hsr ha⟩
      by_cases hm : (V n).op = .MUX
      · obtain ⟨-, c, alts, hsr⟩ := (hc n hn).mux hm
        have hcm : c ∈ (V n).srcs := by simp [hsr]
        obtain ⟨i, hi⟩ := hsrc c hcm
        have hlt := hwVal_lt hto hs (fun n hn ho => absurd ho (hof n hn)) hin hi (srcs_in_order hto hn hcm).1
        have hlt := Nat.lt_of_lt_of_le hlt (hmux n hn hm c alts hsr)
        obtain ⟨a, ha⟩ := hsrc alts[i] (by rw [hsr]; simp)
        exact ⟨a, .mux hm hsr (by omega) hi (List.getElem?_eq_getElem hlt) ha⟩
      choose! vals hv using hsrc
      obtain ⟨a, ha⟩ := hwMeaning_defined (hc n hn) (hs n hn) ⟨hi, hco, ho, hof n hn, hm⟩ vals
      exact ⟨a, .op vals (by omega) hv ha⟩
  exact fun n hn => key _ n hn (Nat.lt_succ_self _)

/-- A signed value that is shifted left without overflow is multiplied. -/
theorem hwShl_signed {ty : DFType} {k n : Nat} (hw : 0 < width ty) (hs : ty.isSigned = true) (hn : n < 2 ^ width ty)
    (h1 : -(2 ^ (width ty - 1) : Int) ≤ number ty n * 2 ^ k) (h2 : number ty n * 2 ^ k < 2 ^ (width ty - 1)) :
    hwShl ty k n = pattern ty (number ty n * 2 ^ k) := by
  obtain ⟨W, hW⟩ : ∃ W, width ty = W + 1 := ⟨width ty - 1, by omega⟩
  have hp : (0 : Int) < 2 ^ k := by positivity
  have e : (2 : Nat) ^ (W + 1) = 2 * 2 ^ W := Nat.pow_succ'
  have eI : (2 : Int) ^ (W + 1) = 2 * 2 ^ W := by ring
  simp only [number, hs, true_and] at h1 h2 ⊢
  rw [hW] at hn h1 h2 ⊢
  simp only [Nat.add_sub_cancel] at h1 h2
  unfold hwShl pattern
  rw [if_pos hs, hW, Nat.add_sub_cancel]
  have hWI : ((2 ^ W : Nat) : Int) = 2 ^ W := by push_cast; rfl
  by_cases hneg : 2 ^ (W + 1) ≤ 2 * n
  · rw [if_pos hneg] at h1 h2 ⊢
    have hd : n / 2 ^ W = 1 := by
      rw [Nat.div_eq_iff (by positivity)]; omega
    rw [hd]
    -- n = 2^W + r, value (r - 2^W) * 2^k ≥ -2^W
    obtain ⟨r, rfl⟩ : ∃ r, n = 2 ^ W + r := ⟨n - 2 ^ W, by omega⟩
    have hr : (r : Int) < 2 ^ W := by rw [← hWI]; exact_mod_cast (by omega : r < 2 ^ W)
    have hk : ((2 ^ W + r : Nat) : Int) - 2 ^ (W + 1) = r - 2 ^ W := by rw [eI]; push_cast; ring
    rw [hk] at h1 h2 ⊢
    have hlo : (r - 2 ^ W : Int) * 2 ^ k < 0 := Int.mul_neg_of_neg_of_pos (by omega) hp
    have hmod : ((r - 2 ^ W : Int) * 2 ^ k) % 2 ^ (W + 1) = (r - 2 ^ W) * 2 ^ k + 2 ^ (W + 1) := by
      rw [← Int.add_mul_emod_self_left _ _ 1, mul_one]
      exact Int.emod_eq_of_lt (by omega) (by omega)
    rw [hmod]
    -- (2^W + r) * 2^k mod 2^W
    have hm2 : (((2 ^ W + r) * 2 ^ k % 2 ^ W : Nat) : Int) = (r - 2 ^ W) * 2 ^ k + 2 ^ W := by
      push_cast
      have : ((2 ^ W + r) * 2 ^ k : Int) = ((r - 2 ^ W) * 2 ^ k + 2 ^ W) + 2 ^ W * (2 * 2 ^ k - 1) := by ring
      rw [this, Int.add_mul_emod_self_left]
      exact Int.emod_eq_of_lt (by omega) (by omega)
    omega
  · rw [if_neg hneg] at h1 h2 ⊢
    have hd : n / 2 ^ W = 0 := Nat.div_eq_of_lt (by omega)
    rw [hd, Nat.zero_mul, Nat.zero_add]
    have h2' : n * 2 ^ k < 2 ^ W := by exact_mod_cast h2
    rw [Nat.mod_eq_of_lt h2', Int.emod_eq_of_lt (by positivity) (by omega)]
    have : (n : Int) * 2 ^ k = ((n * 2 ^ k : Nat) : Int) := by push_cast; rfl
    rw [this, Int.toNat_natCast]

end Verif.Flow
