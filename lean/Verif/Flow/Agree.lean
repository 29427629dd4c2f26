import Verif.Flow.Insts
/-
Where the hardware computes what the operators mean.
-/
namespace Verif.Flow
open Verif.Dfcxx

theorem number_eq (ty : DFType) (n : Nat) : number ty n = numAs ty.isSigned (width ty) n := rfl

/-- Two readings of a pattern differ by a multiple of 2^width. -/
theorem numAs_emod (s s' : Bool) {w v : Nat} (h : v ≤ w ∨ s = s') (n : Nat) : numAs s w n % 2 ^ v = numAs s' w n % 2 ^ v := by
  rcases h with h | rfl
  · have hd : ((2 : Int) ^ w) = 2 ^ v * 2 ^ (w - v) := by rw [← Int.pow_add]; congr 1; omega
    have key : ∀ s, numAs s w n % 2 ^ v = (n : Int) % 2 ^ v := by
      intro s
      unfold numAs
      split
      · rw [hd]
        have : (n : Int) - 2 ^ v * 2 ^ (w - v) = n + 2 ^ v * (-2 ^ (w - v)) := by ring
        rw [this, Int.add_mul_emod_self_left]
      · rfl
    rw [key s, key s']
  · rfl

theorem pattern_congr {ty : DFType} {x y : Int} (h : x % 2 ^ width ty = y % 2 ^ width ty) : pattern ty x = pattern ty y := by
  unfold pattern; rw [h]

/-- Cutting to a width and reading back changes nothing below it. -/
theorem numAs_wrap (s : Bool) {p v : Nat} (h : v ≤ p) (z : Int) : numAs s p (z % 2 ^ p).toNat % 2 ^ v = z % 2 ^ v := by
  have h0 : (0 : Int) ≤ z % 2 ^ p := Int.emod_nonneg _ (by positivity)
  have hd : ((2 : Int) ^ p) = 2 ^ v * 2 ^ (p - v) := by rw [← Int.pow_add]; congr 1; omega
  rw [numAs_emod s false (.inl h)]
  simp only [numAs, Bool.false_eq_true, false_and, if_false]
  rw [Int.toNat_of_nonneg h0, hd, Int.emod_emod_of_dvd _ (Dvd.intro _ rfl)]

theorem supported_produced {V : Nat → NodeV} {L n : Nat} (hc : Complete V n) (h : Supported V L n) : Produced V L n := by
  refine ⟨h.1.size, ?_⟩
  have h2 := h.2
  have hbin := hc.binary
  cases ho : (V n).op <;> rw [ho] at h2 <;> simp only at h2 ⊢
  case ADD | SUB | MUL =>
    obtain ⟨a, b, hs⟩ := hbin (by simp [ho])
    obtain ⟨-, -, -, h3⟩ := h2 a b hs
    exact h3.imp id (·.1)
  case CAST => exact fun s hs => (h2 s hs).2
  case CONST => exact h.1.2.2
  case SHL => exact ⟨.inl h2.1, h2.2⟩
  all_goals first
    | exact h2
    | exact h2.1

theorem arith_agree {f : Int → Int → Int} (hf : ∀ (m x x' y y' : Int), x % m = x' % m → y % m = y' % m → f x y % m = f x' y' % m)
    {ty : DFType} {a b : DFType × Nat} (h1 : width ty ≤ max (width a.1) (width b.1))
    (h2 : width ty ≤ width a.1 ∨ a.1.isSigned = ty.isSigned) (h3 : width ty ≤ width b.1 ∨ b.1.isSigned = ty.isSigned) :
    hwArith f ty a b = pattern ty (f (number a.1 a.2) (number b.1 b.2)) := by
  unfold hwArith
  apply pattern_congr
  rw [numAs_wrap _ h1]
  exact hf _ _ _ _ _ (numAs_emod _ _ (h2.imp id Eq.symm) _) (numAs_emod _ _ (h3.imp id Eq.symm) _)

theorem comp_agree {f : Int → Int → Bool} {a b : DFType × Nat} (h1 : a.1.isSigned = b.1.isSigned)
    (h2 : unsignedTy a.1 ∨ width a.1 = width b.1) : hwComp f a b = f (number a.1 a.2) (number b.1 b.2) := by
  unfold hwComp
  rw [number_eq, number_eq, ← h1, Bool.and_self]
  rcases h2 with h | h
  · unfold unsignedTy at h
    simp [numAs, h]
  · rw [h, Nat.max_self]

/-- Where an operator is supported, the hardware computes what it means. -/
theorem supported_agree {V : Nat → NodeV} {L n : Nat} (hs : Supported V L n) (vals : Nat → Nat) {r : Nat}
    (h : opMeaning (V n).op (V n).data (V n).ty ((V n).srcs.map fun s => ((V s).ty, vals s)) = some r) :
    hwMeaning (V n).op (V n).data (V n).ty ((V n).srcs.map fun s => ((V s).ty, vals s)) = some r := by
  have h2 := hs.2
  have hadd : ∀ (m x x' y y' : Int), x % m = x' % m → y % m = y' % m → (x + y) % m = (x' + y') % m := by
    intro m x x' y y' h h'; rw [Int.add_emod, h, h', ← Int.add_emod]
  have hsub : ∀ (m x x' y y' : Int), x % m = x' % m → y % m = y' % m → (x - y) % m = (x' - y') % m := by
    intro m x x' y y' h h'; rw [Int.sub_emod, h, h', ← Int.sub_emod]
  have hmul : ∀ (m x x' y y' : Int), x % m = x' % m → y % m = y' % m → (x * y) % m = (x' * y') % m := by
    intro m x x' y y' h h'; rw [Int.mul_emod, h, h', ← Int.mul_emod]
  cases ho : (V n).op <;> rw [ho] at h2 h
  case ADD | SUB | MUL =>
    match hsr : (V n).srcs with
    | [a, b] =>
      rw [hsr] at h
      obtain ⟨g1, g2, g3, -⟩ := h2 a b hsr
      simp only [List.map_cons, List.map_nil, opMeaning, hwMeaning, Option.some.injEq] at h ⊢
      rw [← h]
      exact arith_agree (by first | exact hadd | exact hsub | exact hmul) g1 g2 g3
    | [] => rw [hsr] at h; simp [opMeaning] at h
    | [_] => rw [hsr] at h; simp [opMeaning] at h
    | _ :: _ :: _ :: _ => rw [hsr] at h; simp [opMeaning] at h
  case LESS | LESSEQ | GREATER | GREATEREQ | EQ | NEQ =>
    match hsr : (V n).srcs with
    | [a, b] =>
      rw [hsr] at h
      obtain ⟨g1, g2⟩ := h2.2 a b hsr
      simp only [List.map_cons, List.map_nil, opMeaning, hwMeaning, Option.some.injEq] at h ⊢
      rw [← h, comp_agree g1 g2]
    | [] => rw [hsr] at h; simp [opMeaning] at h
    | [_] => rw [hsr] at h; simp [opMeaning] at h
    | _ :: _ :: _ :: _ => rw [hsr] at h; simp [opMeaning] at h
  case CAST =>
    match hsr : (V n).srcs with
    | [a] =>
      rw [hsr] at h
      obtain ⟨g1, -⟩ := h2 a (by simp [hsr])
      simp only [List.map_cons, List.map_nil, opMeaning, hwMeaning, Option.some.injEq] at h ⊢
      rw [← h, number_eq]
      exact pattern_congr (numAs_emod _ _ (g1.imp id Eq.symm) _)
    | [] => rw [hsr] at h; simp [opMeaning] at h
    | _ :: _ :: _ => rw [hsr] at h; simp [opMeaning] at h
  case SHL =>
    match hsr : (V n).srcs, hd : (V n).data with
    | [a], .bitShift k =>
      rw [hsr, hd] at h
      have g1 := h2.2 a (by simp [hsr])
      have hu := h2.1
      unfold unsignedTy at hu
      simp only [List.map_cons, List.map_nil, opMeaning, hwMeaning, Option.some.injEq] at h ⊢
      rw [← h]
      have : number (V a).ty (vals a) = vals a := by simp [number, g1.2, hu]
      simp only [hwShl, hu, Bool.false_eq_true, if_false, this, pattern]
      norm_cast
    | [], _ => rw [hsr] at h; simp [opMeaning] at h
    | _ :: _ :: _, _ => rw [hsr] at h; simp [opMeaning] at h
    | [_], .none => rw [hsr, hd] at h; simp [opMeaning] at h
    | [_], .offset _ => rw [hsr, hd] at h; simp [opMeaning] at h
    | [_], .muxId _ => rw [hsr, hd] at h; simp [opMeaning] at h
    | [_], .bitsRange _ _ => rw [hsr, hd] at h; simp [opMeaning] at h
  case DIV | NEG => exact absurd h2 (by simp)
  all_goals
    rw [← h]
    cases hd : (V n).data <;>
    (match hsr : (V n).srcs with
     | [] => rfl
     | [_] => rfl
     | [_, _] => rfl
     | _ :: _ :: _ :: _ => rfl)

/-- **Streams.**  Where the hardware of every operator computes what the operator means on the values that occur, the streams in hardware
are those the graph denotes. -/
theorem hwVal_of_streamVal {V : Nat → NodeV} {order : List Nat} (hin : ∀ n ∈ order, ∀ s ∈ (V n).srcs, s ∈ order)
    {inp : String → Nat → Nat}
    (hag : ∀ n ∈ order, ∀ (t : Int) (vals : Nat → Nat) (r : Nat), (∀ s ∈ (V n).srcs, StreamVal V inp s t (vals s)) →
      (∀ s ∈ (V n).srcs, HwVal V inp s t (vals s)) →
      opMeaning (V n).op (V n).data (V n).ty ((V n).srcs.map fun s => ((V s).ty, vals s)) = some r →
      hwMeaning (V n).op (V n).data (V n).ty ((V n).srcs.map fun s => ((V s).ty, vals s)) = some r)
    {n : Nat} {t : Int} {a : Nat} (h : StreamVal V inp n t a) : n ∈ order → HwVal V inp n t a := by
  induction h with
  | input h hk => exact fun _ => .input h hk
  | scalar h hk => exact fun _ => .scalar h hk
  | const h hk => exact fun _ => .const h hk
  | out h hs ha ih => exact fun hn => .out h hs (ih (hin _ hn _ (by simp [hs])))
  | offset h hd hs ha ih => exact fun hn => .offset h hd hs (ih (hin _ hn _ (by simp [hs])))
  | mux h hs ht hc hi ha ihc iha =>
    exact fun hn => .mux h hs ht (ihc (hin _ hn _ (by simp [hs]))) hi
      (iha (hin _ hn _ (by rw [hs]; exact List.mem_cons_of_mem _ (List.mem_of_getElem? hi))))
  | op vals ht hs ho ih =>
    intro hn
    have := fun s hm => ih s hm (hin _ hn s hm)
    exact .op vals ht this (hag _ hn _ _ _ hs this ho)

end Verif.Flow
