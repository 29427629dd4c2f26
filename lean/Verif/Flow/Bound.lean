import Verif.Flow.Eval
/-
Elements of streams are patterns of the width of their node.
-/
namespace Verif.Flow
open Verif.Dfcxx

theorem bit_lt (b : Bool) {k : Nat} (hk : 0 < k) : truth b < 2 ^ k := by
  have : 2 ^ 1 ≤ 2 ^ k := Nat.pow_le_pow_right (by omega) hk
  unfold truth
  split <;> omega

/-- What an operator computes is a pattern of its type. -/
theorem opMeaning_lt {V : Nat → NodeV} {n : Nat} (hs : Supported V 0 n) {vals : Nat → Nat} (hv : ∀ s ∈ (V n).srcs, vals s < 2 ^ width (V s).ty) {a : Nat}
    (h : opMeaning (V n).op (V n).data (V n).ty ((V n).srcs.map fun s => ((V s).ty, vals s)) = some a) : a < 2 ^ width (V n).ty := by
  obtain ⟨⟨hpos, -, -⟩, hs⟩ := hs
  have pw : ∀ {s k : Nat}, s ∈ (V n).srcs → width (V s).ty ≤ k → vals s < 2 ^ k :=
    fun hm hk => Nat.lt_of_lt_of_le (hv _ hm) (Nat.pow_le_pow_right (by omega) hk)
  cases ho : (V n).op <;> rw [ho] at h hs <;> simp only at hs
  case BITS =>
    match hsr : (V n).srcs, hd : (V n).data with
    | [x], .bitsRange l r =>
      rw [hsr, hd] at h
      simp only [opMeaning, List.map_cons, List.map_nil, Option.some.injEq] at h
      obtain ⟨-, -, hw, -⟩ := hs l r hd
      rw [← h, hw]
      exact Nat.mod_lt _ (by positivity)
    | [], _ => rw [hsr] at h; simp [opMeaning] at h
    | _ :: _ :: _, _ => rw [hsr] at h; simp [opMeaning] at h
    | [_], .none => rw [hsr, hd] at h; simp [opMeaning] at h
    | [_], .offset _ => rw [hsr, hd] at h; simp [opMeaning] at h
    | [_], .muxId _ => rw [hsr, hd] at h; simp [opMeaning] at h
    | [_], .bitShift _ => rw [hsr, hd] at h; simp [opMeaning] at h
  case SHL | SHR =>
    match hsr : (V n).srcs, hd : (V n).data with
    | [x], .bitShift k =>
      rw [hsr, hd] at h
      simp only [opMeaning, List.map_cons, List.map_nil, Option.some.injEq] at h
      rw [← h]
      exact pattern_lt _ _
    | [], _ => rw [hsr] at h; simp [opMeaning] at h
    | _ :: _ :: _, _ => rw [hsr] at h; simp [opMeaning] at h
    | [_], .none => rw [hsr, hd] at h; simp [opMeaning] at h
    | [_], .offset _ => rw [hsr, hd] at h; simp [opMeaning] at h
    | [_], .muxId _ => rw [hsr, hd] at h; simp [opMeaning] at h
    | [_], .bitsRange _ _ => rw [hsr, hd] at h; simp [opMeaning] at h
  case CAST | NOT =>
    match hsr : (V n).srcs with
    | [x] =>
      rw [hsr] at h
      simp only [opMeaning, List.map_cons, List.map_nil, Option.some.injEq] at h
      rw [← h]
      first
        | exact pattern_lt _ _
        | (have : 0 < 2 ^ width (V n).ty := by positivity
           omega)
    | [] => rw [hsr] at h; simp [opMeaning] at h
    | _ :: _ :: _ => rw [hsr] at h; simp [opMeaning] at h
  case IN | OUT | CONST | MUX | OFFSET => simp [opMeaning] at h
  all_goals
    match hsr : (V n).srcs with
    | [] => rw [hsr] at h; simp [opMeaning] at h
    | [_] => rw [hsr] at h; simp [opMeaning] at h
    | _ :: _ :: _ :: _ => rw [hsr] at h; simp [opMeaning] at h
    | [x, y] =>
      have hx : x ∈ (V n).srcs := by rw [hsr]; simp
      have hy : y ∈ (V n).srcs := by rw [hsr]; simp
      rw [hsr] at h
      simp only [opMeaning, List.map_cons, List.map_nil, Option.some.injEq] at h
      rw [← h]
      first
        | exact pattern_lt _ _
        | exact bit_lt _ hpos
        | (have hw := (hs.2 x y hsr).2.2
           first
             | exact Nat.and_lt_two_pow _ (pw hy (by omega))
             | exact Nat.or_lt_two_pow (pw hx (by omega)) (pw hy (by omega))
             | exact Nat.xor_lt_two_pow (pw hx (by omega)) (pw hy (by omega)))
        | (have hw := (hs.2 x y hsr).2
           rw [hw, Nat.pow_add]
           have h1 := hv x hx
           have h2 := hv y hy
           calc vals x * 2 ^ width (V y).ty + vals y < vals x * 2 ^ width (V y).ty + 2 ^ width (V y).ty := by omega
             _ = (vals x + 1) * 2 ^ width (V y).ty := by ring
             _ ≤ 2 ^ width (V x).ty * 2 ^ width (V y).ty := Nat.mul_le_mul_right _ h1)

/-- Every element of every stream is a pattern of the node's type, if inputs are fed such patterns. -/
theorem streamVal_lt {V : Nat → NodeV} {order : List Nat} (hto : TopoOrder V order) (hs : ∀ n ∈ order, Supported V 0 n) (hc : ∀ n ∈ order, (V n).op = .OFFSET → ∀ s ∈ (V n).srcs, width (V s).ty = width (V n).ty)
    {inp : String → Nat → Nat} (hin : ∀ n ∈ order, (V n).op = .IN → ∀ t, inp (V n).name t < 2 ^ width (V n).ty) {n : Nat} {t : Int} {a : Nat}
    (h : StreamVal V inp n t a) : n ∈ order → a < 2 ^ width (V n).ty := by
  induction h with
  | input h1 h2 => exact fun hn => hin _ hn h1 _
  | scalar h1 h2 => exact fun hn => hin _ hn h1 _
  | const h1 h2 => exact fun _ => pattern_lt _ _
  | out h1 h2 h3 ih =>
    intro hn
    have := (hs _ hn).2
    rw [h1] at this
    simp only at this
    have hm : _ ∈ (V _).srcs := h2 ▸ List.mem_singleton_self _
    rw [← (this _ hm).1]
    exact ih (srcs_in_order hto hn hm).1
  | offset h1 h2 h3 h4 ih =>
    intro hn
    have hm : _ ∈ (V _).srcs := h3 ▸ List.mem_singleton_self _
    rw [← hc _ hn h1 _ hm]
    exact ih (srcs_in_order hto hn hm).1
  | mux h1 h2 h3 h4 h5 h6 _ ih =>
    intro hn
    have := (hs _ hn).2
    rw [h1] at this
    simp only at this
    have hm := List.mem_of_getElem? h5
    rw [← ((this _ _ h2).2.2 _ hm).1]
    exact ih (srcs_in_order hto hn (by rw [h2]; simp [hm])).1
  | op vals h1 h2 h3 ih =>
    intro hn
    exact opMeaning_lt (hs _ hn) (fun s hm => ih s hm (srcs_in_order hto hn hm).1) h3

end Verif.Flow
