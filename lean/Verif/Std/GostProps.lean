import Verif.Std.CryptoProps
/-
C56, C57: the Magma and Kuznechik kernels compute the ciphers of GOST R 34.12-2015 (RFC 8891, RFC 7801).
The specification below follows the notation of the RFCs; it shares with the model only the substitution tables, which are
literals on both sides.
-/
open Polynomial
namespace Verif.Std.Gost

/-! ### Magma, RFC 8891 -/

/-- Pi'_0 ... Pi'_7 (RFC 8891, 4.1.1), copied from the standard. -/
def piPrime : List (List Nat) :=
  [[12, 4, 6, 2, 10, 5, 11, 9, 14, 8, 13, 7, 0, 3, 15, 1],
   [6, 8, 2, 3, 9, 10, 5, 12, 1, 14, 4, 7, 11, 13, 0, 15],
   [11, 3, 5, 8, 2, 15, 10, 13, 14, 1, 7, 4, 12, 9, 6, 0],
   [12, 8, 2, 1, 13, 4, 15, 6, 7, 0, 10, 5, 3, 14, 9, 11],
   [7, 15, 5, 10, 8, 1, 6, 13, 0, 9, 3, 14, 11, 4, 2, 12],
   [5, 13, 15, 6, 9, 2, 12, 10, 11, 7, 8, 1, 4, 3, 14, 0],
   [8, 14, 2, 5, 6, 9, 1, 12, 15, 4, 11, 0, 13, 10, 3, 7],
   [1, 7, 14, 13, 0, 5, 8, 3, 4, 15, 10, 6, 9, 12, 11, 2]]

/-- `IsT a b`: `b = t(a)`, every nibble `i` of `b` is Pi'_i of nibble `i` of `a`. -/
def IsT (a b : BitVec 32) : Prop :=
  ∀ i, i < 8 → b.toNat / 16 ^ i % 16 = (piPrime.getD i []).getD (a.toNat / 16 ^ i % 16) 0

/-- `IsG k a b`: `b = g[k](a) = t(a + k) <<< 11`. -/
def IsG (k a b : BitVec 32) : Prop := ∃ t, IsT (BitVec.ofNat 32 ((a.toNat + k.toNat) % 2 ^ 32)) t ∧ b = t.rotateLeft 11

/-- The `i`-th 32-bit word of the key, from the top, `i = 1..8`; K_{i+8} = K_{i+16} = K_i, K_{i+24} = K_{9-i}. -/
def word (key : BitVec 256) (i : Nat) : BitVec 32 := BitVec.ofNat 32 (key.toNat / 2 ^ (32 * (8 - i)))
def K (key : BitVec 256) (i : Nat) : BitVec 32 :=
  if i ≤ 24 then word key ((i - 1) % 8 + 1) else word key (9 - (i - 24))

/-- A run of 32 rounds: `(a_{i}, b_{i})` for `i = 0..32`; `G[K]` for the first 31 rounds, `G*[K]` for the last. `sched i` is the key of
round `i = 1..32`. -/
structure Run (sched : Nat → BitVec 32) (inp out : BitVec 64) where
  a1 : Nat → BitVec 32
  a0 : Nat → BitVec 32
  start : inp = a1 0 ++ a0 0
  round : ∀ i, i < 32 → ∃ g, IsG (sched (i + 1)) (a0 i) g ∧ a1 (i + 1) = a0 i ∧ a0 (i + 1) = g ^^^ a1 i
  finish : out = a0 32 ++ a1 32

def IsMagmaEncrypt (key : BitVec 256) (inp out : BitVec 64) : Prop := Nonempty (Run (K key) inp out)
def IsMagmaDecrypt (key : BitVec 256) (inp out : BitVec 64) : Prop := Nonempty (Run (fun i => K key (33 - i)) inp out)

end Gost

open Gost

/-- The substitution of all nibbles, as the model computes it. -/
def magmaSubst (sum : BitVec 32) : BitVec 32 :=
  let part (i : Nat) : BitVec 4 := sum.extractLsb' (4 * i) 4
  permut 7 (part 7) ++ permut 6 (part 6) ++ permut 5 (part 5) ++ permut 4 (part 4) ++ permut 3 (part 3) ++
      permut 2 (part 2) ++ permut 1 (part 1) ++ permut 0 (part 0)

/-- What the model's round adds to the left half. -/
def magmaG (right key : BitVec 32) : BitVec 32 := (magmaSubst (right + key)).rotateLeft 11

theorem rotate11 (s : BitVec 32) : (s.extractLsb 20 0 ++ s.extractLsb 31 21 : BitVec 32) = s.rotateLeft 11 := by
  apply BitVec.eq_of_getLsbD_eq; intro i hi
  simp only [BitVec.getLsbD_append, BitVec.getLsbD_extractLsb, BitVec.getLsbD_rotateLeft]
  by_cases h : i < 11
  · simp [h]
  · have h1 : i - 11 < 21 := by omega
    have h2 : i < 32 := by omega
    simp [h, h1, h2]

theorem magmaRound_eq (l r k : BitVec 32) : magmaRound l r k = (r, magmaG r k ^^^ l) := by
  have : magmaRound l r k = (r, l ^^^ ((magmaSubst (r + k)).extractLsb 20 0 ++ (magmaSubst (r + k)).extractLsb 31 21 : BitVec 32)) :=
    rfl
  rw [this, rotate11, BitVec.xor_comm]
  rfl

theorem permut_toNat (i : Nat) (hi : i < 8) (x : BitVec 4) : (permut i x).toNat = (piPrime.getD i []).getD x.toNat 0 := by
  have h : ∀ i, i < 8 → ∀ n, n < 16 → (permut i (BitVec.ofNat 4 n)).toNat = (piPrime.getD i []).getD n 0 := by decide
  have := h i hi x.toNat x.isLt
  simpa using this

theorem nibble (b : BitVec 32) (i : Nat) : b.toNat / 16 ^ i % 16 = (b.extractLsb' (4 * i) 4).toNat := by
  rw [BitVec.extractLsb'_toNat, Nat.shiftRight_eq_div_pow, Nat.pow_mul]

theorem nibble_subst (a : BitVec 32) (i : Nat) (hi : i < 8) :
    (magmaSubst a).extractLsb' (4 * i) 4 = permut i (a.extractLsb' (4 * i) 4) := by
  unfold magmaSubst
  rcases i with _|_|_|_|_|_|_|_|i
  all_goals first
    | omega
    | (apply BitVec.eq_of_getLsbD_eq; intro j hj
       rw [BitVec.getLsbD_extractLsb']
       simp only [BitVec.getLsbD_append, hj, decide_true, Bool.true_and]
       repeat (first
         | rw [if_pos (by omega)]
         | rw [if_neg (by omega)])
       exact congrArg (BitVec.getLsbD _) (by omega))

theorem nibble_ext {u v : BitVec 32} (h : ∀ i, i < 8 → u.extractLsb' (4 * i) 4 = v.extractLsb' (4 * i) 4) : u = v := by
  apply BitVec.eq_of_getLsbD_eq
  intro j hj
  have := congrArg (fun b => b.getLsbD (j % 4)) (h (j / 4) (by omega))
  simp only [BitVec.getLsbD_extractLsb'] at this
  have e : 4 * (j / 4) + j % 4 = j := by omega
  rw [e] at this
  have e2 : j % 4 < 4 := by omega
  simpa [e2] using this

theorem isT_iff (a b : BitVec 32) : IsT a b ↔ b = magmaSubst a := by
  constructor
  · intro h
    apply nibble_ext; intro i hi
    apply BitVec.eq_of_toNat_eq
    rw [nibble_subst a i hi, permut_toNat i hi, ← nibble, ← nibble]
    exact h i hi
  · rintro rfl i hi
    rw [nibble, nibble, nibble_subst a i hi, permut_toNat i hi]

theorem isG_iff (k a b : BitVec 32) : IsG k a b ↔ b = magmaG a k := by
  have e : BitVec.ofNat 32 ((a.toNat + k.toNat) % 2 ^ 32) = a + k := by
    apply BitVec.eq_of_toNat_eq; simp [BitVec.toNat_add]
  unfold IsG magmaG
  simp only [isT_iff, e]
  constructor
  · rintro ⟨t, rfl, h⟩; exact h
  · intro h; exact ⟨_, rfl, h⟩

theorem cat64_inj (a b c d : BitVec 32) (h : (a ++ b : BitVec 64) = c ++ d) : a = c ∧ b = d := by
  have h1 := congrArg (fun v : BitVec 64 => v.extractLsb 63 32) h
  have h2 := congrArg (fun v : BitVec 64 => v.extractLsb 31 0) h
  simp only [hi_cat, lo_cat] at h1 h2
  exact ⟨h1, h2⟩

/-- A run of the specification with the keys listed in `inds` is the fold of the model. -/
theorem run_iff (key : BitVec 256) (sched : Nat → BitVec 32) (inds : List Nat) (hl : inds.length = 32)
    (hs : ∀ i, i < 32 → sched (i + 1) = magmaKey key (inds.getD i 0)) (inp out : BitVec 64) :
    Nonempty (Run sched inp out) ↔ out =
      ((magmaRounds key (inp.extractLsb 63 32, inp.extractLsb 31 0) inds).2 ++
       (magmaRounds key (inp.extractLsb 63 32, inp.extractLsb 31 0) inds).1 : BitVec 64) := by
  have hfull : inds.take 32 = inds := List.take_of_length_le (by omega)
  have hstep : ∀ i, i < 32 → ∀ s, magmaRounds key s (inds.take (i + 1)) =
      let p := magmaRounds key s (inds.take i)
      (p.2, magmaG p.2 (sched (i + 1)) ^^^ p.1) := by
    intro i hi s
    have : inds.take (i + 1) = inds.take i ++ [inds.getD i 0] := by
      rw [List.take_add_one]; congr 1
      rw [List.getElem?_eq_getElem (by omega), List.getD_eq_getElem?_getD, List.getElem?_eq_getElem (by omega)]; rfl
    rw [this]
    unfold magmaRounds
    rw [List.foldl_append]
    simp only [List.foldl_cons, List.foldl_nil, magmaRound_eq, hs i hi]
  constructor
  · rintro ⟨r⟩
    obtain ⟨e1, e2⟩ := cat64_inj _ _ _ _ ((cat_hi_lo inp).trans r.start)
    have : ∀ i, i ≤ 32 → magmaRounds key (inp.extractLsb 63 32, inp.extractLsb 31 0) (inds.take i) = (r.a1 i, r.a0 i) := by
      intro i
      induction i with
      | zero => intro _; rw [← e1, ← e2]; rfl
      | succ n ih =>
        intro hn
        obtain ⟨g, hg, h1, h2⟩ := r.round n (by omega)
        rw [isG_iff] at hg
        rw [hstep n (by omega), ih (by omega), h1, h2, hg]
    have h32 := this 32 (by omega)
    rw [hfull] at h32
    rw [h32]; exact r.finish
  · intro ho
    refine ⟨⟨fun i => (magmaRounds key (inp.extractLsb 63 32, inp.extractLsb 31 0) (inds.take i)).1,
      fun i => (magmaRounds key (inp.extractLsb 63 32, inp.extractLsb 31 0) (inds.take i)).2, ?_, ?_, ?_⟩⟩
    · exact (cat_hi_lo inp).symm
    · intro i hi
      refine ⟨_, (isG_iff _ _ _).mpr rfl, ?_, ?_⟩
      · rw [hstep i hi]
      · rw [hstep i hi]
    · rw [hfull]; exact ho

theorem word_eq (key : BitVec 256) (j : Nat) (hj : j < 8) : word key (j + 1) = magmaKey key j := by
  apply BitVec.eq_of_toNat_eq
  unfold word magmaKey
  rw [BitVec.extractLsb'_toNat, Nat.shiftRight_eq_div_pow, BitVec.toNat_ofNat]
  congr 3; omega

/-- **C56.** The Magma encoder computes the encryption of RFC 8891: its output is the only one the standard allows. -/
theorem magma_encode_is_standard (key : BitVec 256) (inp out : BitVec 64) :
    IsMagmaEncrypt key inp out ↔ out = magmaEncode key inp := by
  rw [magmaEncode_eq]
  refine run_iff key _ _ rfl (fun i hi => ?_) inp out
  have h : ∀ i, i < 32 → ∃ j, j < 8 ∧ (up ++ up ++ up ++ down).getD i 0 = j ∧
      (if i + 1 ≤ 24 then (i + 1 - 1) % 8 + 1 else 9 - (i + 1 - 24)) = j + 1 := by
    intro i hi
    refine ⟨(up ++ up ++ up ++ down).getD i 0, ?_, rfl, ?_⟩ <;> revert i <;> decide
  obtain ⟨j, h1, h2, h3⟩ := h i hi
  rw [h2, ← word_eq key j h1, ← h3]
  unfold K
  split <;> rfl

/-- **C56.** The Magma decoder computes the decryption of RFC 8891. -/
theorem magma_decode_is_standard (key : BitVec 256) (inp out : BitVec 64) :
    IsMagmaDecrypt key inp out ↔ out = magmaDecode key inp := by
  rw [magmaDecode_eq]
  refine run_iff key _ _ rfl (fun i hi => ?_) inp out
  have h : ∀ i, i < 32 → ∃ j, j < 8 ∧ (up ++ up ++ up ++ down).reverse.getD i 0 = j ∧
      (if 33 - (i + 1) ≤ 24 then (33 - (i + 1) - 1) % 8 + 1 else 9 - (33 - (i + 1) - 24)) = j + 1 := by
    intro i hi
    refine ⟨(up ++ up ++ up ++ down).reverse.getD i 0, ?_, rfl, ?_⟩ <;> revert i <;> decide
  obtain ⟨j, h1, h2, h3⟩ := h i hi
  rw [h2, ← word_eq key j h1, ← h3]
  unfold K
  split <;> rfl

/-- RFC 8891, A.4: the test vector of the standard. -/
example : IsMagmaEncrypt 0xffeeddccbbaa99887766554433221100f0f1f2f3f4f5f6f7f8f9fafbfcfdfeff#256 0xfedcba9876543210#64
    0x4ee901e5c2d8ca3d#64 := (magma_encode_is_standard _ _ _).mpr (by decide +kernel)

/-! ### Kuznechik, RFC 7801 -/

namespace Gost

/-- Byte `a_i` of a vector `a_15 || ... || a_0`. -/
def byte (v : BitVec 128) (i : Nat) : BitVec 8 := BitVec.ofNat 8 (v.toNat / 256 ^ i)

/-- The coefficients of `l`, that of `a_15` first (RFC 7801, 4.2). -/
def lCoeffs : List Nat := [148, 32, 133, 16, 194, 192, 1, 251, 1, 192, 194, 16, 133, 32, 148, 1]

/-- `l(a_15, ..., a_0)`, in the field. -/
noncomputable def lPoly (v : BitVec 128) : (ZMod 2)[X] :=
  ∑ i ∈ Finset.range 16, poly (BitVec.ofNat 8 (lCoeffs.getD (15 - i) 0)) * poly (byte v i)

/-- `R(a_15 || ... || a_0) = l(a_15, ..., a_0) || a_15 || ... || a_1`. -/
def IsR (v w : BitVec 128) : Prop := poly (byte w 15) = lPoly v %ₘ fieldPoly ∧ ∀ i, i < 15 → byte w i = byte v (i + 1)

/-- `L = R^16`. -/
def IsL (v w : BitVec 128) : Prop := ∃ s : Nat → BitVec 128, s 0 = v ∧ s 16 = w ∧ ∀ i, i < 16 → IsR (s i) (s (i + 1))

/-- `S`: the substitution Pi on every byte. -/
def IsS (v w : BitVec 128) : Prop := ∀ i, i < 16 → (byte w i).toNat = piTable.getD (byte v i).toNat 0

/-- `LSX[k](a)`. -/
def IsLSX (k a b : BitVec 128) : Prop := ∃ s, IsS (k ^^^ a) s ∧ IsL s b

/-- `C_i = L(Vec_128(i))`, `i = 1..32`. -/
def IsC (i : Nat) (c : BitVec 128) : Prop := IsL (BitVec.ofNat 128 i) c

/-- `F[k](a1, a0) = (LSX[k](a1) xor a0, a1)`. -/
def IsF (k : BitVec 128) (a b : BitVec 128 × BitVec 128) : Prop := ∃ t, IsLSX k a.1 t ∧ b = (t ^^^ a.2, a.1)

/-- The round keys: `K_1 || K_2 = K`, `(K_{2i+1}, K_{2i+2}) = F[C_{8(i-1)+8}] ... F[C_{8(i-1)+1}] (K_{2i-1}, K_{2i})`, `i = 1..4`. -/
def IsKeys (key : BitVec 256) (k : Nat → BitVec 128) : Prop :=
  key = k 1 ++ k 2 ∧
  ∀ i, 1 ≤ i → i ≤ 4 → ∃ s : Nat → BitVec 128 × BitVec 128, s 0 = (k (2 * i - 1), k (2 * i)) ∧
    s 8 = (k (2 * i + 1), k (2 * i + 2)) ∧ ∀ j, j < 8 → ∃ c, IsC (8 * (i - 1) + j + 1) c ∧ IsF c (s j) (s (j + 1))

/-- `E = X[K_10] LSX[K_9] ... LSX[K_1]`. -/
def IsKuznechikEncrypt (key : BitVec 256) (inp out : BitVec 128) : Prop :=
  ∃ k, IsKeys key k ∧ ∃ s : Nat → BitVec 128, s 0 = inp ∧ (∀ i, i < 9 → IsLSX (k (i + 1)) (s i) (s (i + 1))) ∧
    out = k 10 ^^^ s 9

/-- Decryption is the inverse of encryption. -/
def IsKuznechikDecrypt (key : BitVec 256) (inp out : BitVec 128) : Prop := IsKuznechikEncrypt key out inp

end Gost

theorem byte_slice (v : BitVec 128) (i : Nat) (hi : i < 16) : byte v i = slice v (15 - i) := by
  apply BitVec.eq_of_toNat_eq
  unfold byte slice
  rw [BitVec.extractLsb'_toNat, Nat.shiftRight_eq_div_pow, BitVec.toNat_ofNat]
  have : 120 - 8 * (15 - i) = 8 * i := by omega
  rw [this, Nat.pow_mul]

theorem slice_byte (v : BitVec 128) (i : Nat) (hi : i < 16) : slice v i = byte v (15 - i) := by
  rw [byte_slice v _ (by omega)]; congr 1; omega

theorem byte_ext {u v : BitVec 128} (h : ∀ i, i < 16 → byte u i = byte v i) : u = v :=
  slice_ext fun i hi => by rw [slice_byte _ _ hi, slice_byte _ _ hi, h _ (by omega)]

theorem poly_kMul (opt : Bool) (i : Nat) (hi : i < 16) (x : BitVec 8) :
    poly (kMul opt i x) = (poly (BitVec.ofNat 8 (lCoeffs.getD i 0)) * poly x) %ₘ fieldPoly := by
  have h : poly (kMul false i x) = (poly (BitVec.ofNat 8 (lCoeffs.getD i 0)) * poly x) %ₘ fieldPoly := by
    simp only [kMul, Bool.false_eq_true, if_false]
    rw [galois8Mul_is_field_multiplication]; rfl
  cases opt
  · exact h
  · rw [kMul_opt_irrelevant i hi, h]

/-- The model's feedback byte is the field sum of the standard. -/
theorem poly_lGalois (opt : Bool) (v : BitVec 128) : poly (lGalois opt v) = lPoly v %ₘ fieldPoly := by
  have e : List.range' 1 15 = [1, 2, 3, 4, 5, 6, 7, 8, 9, 10, 11, 12, 13, 14, 15] := rfl
  unfold lGalois lPoly
  rw [e]
  simp only [List.foldl_cons, List.foldl_nil, poly_xor, Finset.sum_range_succ, Finset.sum_range_zero, zero_add]
  rw [poly_kMul opt 0 (by omega), poly_kMul opt 1 (by omega), poly_kMul opt 2 (by omega), poly_kMul opt 3 (by omega),
    poly_kMul opt 4 (by omega), poly_kMul opt 5 (by omega), poly_kMul opt 6 (by omega), poly_kMul opt 7 (by omega),
    poly_kMul opt 8 (by omega), poly_kMul opt 9 (by omega), poly_kMul opt 10 (by omega), poly_kMul opt 11 (by omega),
    poly_kMul opt 12 (by omega), poly_kMul opt 13 (by omega), poly_kMul opt 14 (by omega), poly_kMul opt 15 (by omega)]
  simp only [add_modByMonic]
  rw [byte_slice v 0 (by omega), byte_slice v 1 (by omega), byte_slice v 2 (by omega), byte_slice v 3 (by omega),
    byte_slice v 4 (by omega), byte_slice v 5 (by omega), byte_slice v 6 (by omega), byte_slice v 7 (by omega),
    byte_slice v 8 (by omega), byte_slice v 9 (by omega), byte_slice v 10 (by omega), byte_slice v 11 (by omega),
    byte_slice v 12 (by omega), byte_slice v 13 (by omega), byte_slice v 14 (by omega), byte_slice v 15 (by omega)]
  simp only [Nat.sub_zero, Nat.reduceSub, Nat.sub_self]
  ring

theorem isR_iff (opt : Bool) (v w : BitVec 128) : IsR v w ↔ w = kR opt v false := by
  have hb : ∀ j, j < 16 → slice (kR opt v false) j = if j = 0 then lGalois opt v else slice v (j - 1) := by
    intro j hj
    simp only [kR, Bool.false_eq_true, if_false]
    exact slice_shift_in _ _ _ hj
  constructor
  · rintro ⟨h1, h2⟩
    apply slice_ext; intro i hi
    rw [hb i hi]
    by_cases h : i = 0
    · subst h
      rw [if_pos rfl, slice_byte _ _ (by omega)]
      apply poly_injective
      rw [h1, poly_lGalois]
    · rw [if_neg h, slice_byte _ _ hi, h2 _ (by omega), slice_byte _ _ (by omega)]
      congr 1; omega
  · rintro rfl
    refine ⟨?_, fun i hi => ?_⟩
    · rw [byte_slice _ _ (by omega), hb _ (by omega)]
      exact poly_lGalois opt v
    · rw [byte_slice _ _ (by omega), hb _ (by omega), if_neg (by omega), byte_slice _ _ (by omega)]
      congr 1

theorem isL_iff (opt : Bool) (v w : BitVec 128) : IsL v w ↔ w = kL opt v false := by
  have hs : ∀ n u, (List.range (n + 1)).foldl (fun v _ => kR opt v false) u =
      kR opt ((List.range n).foldl (fun v _ => kR opt v false) u) false := by
    intro n u; rw [List.range_succ, List.foldl_append]; simp only [List.foldl_cons, List.foldl_nil]
  unfold IsL kL
  constructor
  · rintro ⟨s, h0, h16, hr⟩
    have : ∀ n, n ≤ 16 → s n = (List.range n).foldl (fun v _ => kR opt v false) v := by
      intro n
      induction n with
      | zero => intro _; exact h0
      | succ m ih => intro hm; rw [hs, ← ih (by omega)]; exact (isR_iff opt _ _).mp (hr m (by omega))
    rw [← h16]; exact this 16 (by omega)
  · rintro rfl
    exact ⟨fun n => (List.range n).foldl (fun v _ => kR opt v false) v, rfl, rfl, fun i _ => (isR_iff opt _ _).mpr (hs i v)⟩

theorem pi_toNat (x : BitVec 8) : (tablePermut x false).toNat = piTable.getD x.toNat 0 := by
  have h : (List.range 256).all (fun n => (tablePermut (BitVec.ofNat 8 n) false).toNat == piTable.getD (BitVec.ofNat 8 n).toNat 0)
      = true := by decide +kernel
  have := forall_byte (fun x => (tablePermut x false).toNat == piTable.getD x.toNat 0) h x
  exact eq_of_beq this

theorem isS_iff (v w : BitVec 128) : IsS v w ↔ w = kS v false := by
  constructor
  · intro h
    apply slice_ext; intro i hi
    unfold kS
    rw [slice_cat16 _ _ hi]
    apply BitVec.eq_of_toNat_eq
    rw [pi_toNat, slice_byte _ _ hi, slice_byte _ _ hi]
    exact h _ (by omega)
  · rintro rfl i hi
    rw [byte_slice _ _ hi, byte_slice _ _ hi]
    unfold kS
    rw [slice_cat16 _ _ (by omega), pi_toNat]

theorem isLSX_iff (opt : Bool) (k a b : BitVec 128) : IsLSX k a b ↔ b = xsl opt k a := by
  unfold IsLSX xsl
  simp only [isS_iff, isL_iff opt]
  constructor
  · rintro ⟨_, rfl, h⟩; exact h
  · intro h; exact ⟨_, rfl, h⟩

theorem isF_iff (opt : Bool) (k : BitVec 128) (a b : BitVec 128 × BitVec 128) : IsF k a b ↔ b = kF opt k a := by
  unfold IsF kF
  simp only [isLSX_iff opt]
  constructor
  · rintro ⟨_, rfl, h⟩; exact h
  · intro h; exact ⟨_, rfl, h⟩

theorem isC_iff (i : Nat) (hi : i < 32) (c : BitVec 128) : IsC (i + 1) c ↔ c = kConst i := by
  unfold IsC
  rw [isL_iff true, ← round_constants true i hi]

theorem hi_cat128 (a b : BitVec 128) : (a ++ b : BitVec 256).extractLsb 255 128 = a := by
  apply BitVec.eq_of_getLsbD_eq; intro i hi
  simp only [BitVec.getLsbD_extractLsb, BitVec.getLsbD_append]
  have h2 : i < 255 - 128 + 1 := by omega
  simp [h2]
theorem lo_cat128 (a b : BitVec 128) : (a ++ b : BitVec 256).extractLsb 127 0 = b := by
  apply BitVec.eq_of_getLsbD_eq; intro i hi
  simp only [BitVec.getLsbD_extractLsb, BitVec.getLsbD_append]
  have h2 : i < 127 - 0 + 1 := by omega
  simp [h2]
theorem cat_hi_lo256 (v : BitVec 256) : (v.extractLsb 255 128 ++ v.extractLsb 127 0 : BitVec 256) = v := by
  apply BitVec.eq_of_getLsbD_eq; intro i hi
  simp only [BitVec.getLsbD_extractLsb, BitVec.getLsbD_append]
  by_cases h : i < 128
  · simp [h]
  · simp [h]
    have e : 128 + (i - 128) = i := by omega
    rw [e]; simp; intro _; omega

theorem genPair_steps (opt : Bool) (k0 k1 : BitVec 128) (i : Nat) (hi : i < 4) (x y : BitVec 128 × BitVec 128)
    (hx : x = genPair opt k0 k1 i) :
    (∃ s : Nat → BitVec 128 × BitVec 128, s 0 = x ∧ s 8 = y ∧ ∀ j, j < 8 → ∃ c, IsC (8 * i + j + 1) c ∧ IsF c (s j) (s (j + 1)))
      ↔ y = genPair opt k0 k1 (i + 1) := by
  have hs : ∀ n u, (List.range (n + 1)).foldl (fun curr j => kF opt (kConst (8 * i + j)) curr) u =
      kF opt (kConst (8 * i + n)) ((List.range n).foldl (fun curr j => kF opt (kConst (8 * i + j)) curr) u) := by
    intro n u; rw [List.range_succ, List.foldl_append]; simp only [List.foldl_cons, List.foldl_nil]
  unfold genPair
  rw [← hx]
  constructor
  · rintro ⟨s, h0, h8, hst⟩
    have : ∀ n, n ≤ 8 → s n = (List.range n).foldl (fun curr j => kF opt (kConst (8 * i + j)) curr) x := by
      intro n
      induction n with
      | zero => intro _; exact h0
      | succ m ih =>
        intro hm
        obtain ⟨c, hc, hf⟩ := hst m (by omega)
        rw [isC_iff _ (by omega)] at hc
        rw [isF_iff opt, hc, ih (by omega)] at hf
        rw [hs]; exact hf
    rw [← h8]; exact this 8 (by omega)
  · rintro rfl
    refine ⟨fun n => (List.range n).foldl (fun curr j => kF opt (kConst (8 * i + j)) curr) x, rfl, rfl, fun j hj => ?_⟩
    refine ⟨_, (isC_iff _ (by omega) _).mpr rfl, (isF_iff opt _ _ _).mpr ?_⟩
    exact hs j x

/-- The model's round keys are the only ones the standard allows. -/
theorem isKeys_iff (opt : Bool) (key : BitVec 256) (k : Nat → BitVec 128) :
    IsKeys key k ↔ ∀ i, i < 10 → k (i + 1) = gKey opt key i := by
  have pair : ∀ i, (gKey opt key (2 * i), gKey opt key (2 * i + 1)) =
      genPair opt (key.extractLsb 255 128) (key.extractLsb 127 0) i := by
    intro i
    have e1 : (2 * i) / 2 = i := by omega
    have e2 : (2 * i + 1) / 2 = i := by omega
    have e3 : (2 * i) % 2 = 0 := by omega
    have e4 : (2 * i + 1) % 2 = 1 := by omega
    simp [gKey, e1, e2, e3, e4]
  constructor
  · rintro ⟨hk, hst⟩
    have hp : ∀ i, i ≤ 4 → (k (2 * i + 1), k (2 * i + 2)) = genPair opt (key.extractLsb 255 128) (key.extractLsb 127 0) i := by
      intro i
      induction i with
      | zero => intro _; rw [hk, hi_cat128, lo_cat128]; rfl
      | succ n ih =>
        intro hn
        have := hst (n + 1) (by omega) hn
        have e1 : 2 * (n + 1) - 1 = 2 * n + 1 := by omega
        have e2 : 2 * (n + 1) = 2 * n + 2 := by omega
        have e3 : n + 1 - 1 = n := by omega
        rw [e1, e2, e3] at this
        exact (genPair_steps opt _ _ n (by omega) _ _ (ih (by omega))).mp this
    intro i hi
    have := (hp (i / 2) (by omega)).trans (pair (i / 2)).symm
    rcases Nat.mod_two_eq_zero_or_one i with h | h
    · have e : 2 * (i / 2) = i := by omega
      rw [e] at this
      exact (Prod.mk.inj this).1
    · have e : 2 * (i / 2) + 1 = i := by omega
      have e' : 2 * (i / 2) + 2 = i + 1 := by omega
      have := (Prod.mk.inj this).2
      rwa [e, e'] at this
  · intro h
    refine ⟨?_, fun i h1 h4 => ?_⟩
    · have p0 := pair 0
      have p := Prod.mk.inj p0
      rw [h 0 (by omega), h 1 (by omega)]
      have a : gKey opt key 0 = key.extractLsb 255 128 := p.1
      have b : gKey opt key 1 = key.extractLsb 127 0 := p.2
      rw [a, b]
      exact (cat_hi_lo256 key).symm
    · obtain ⟨n, rfl⟩ : ∃ n, i = n + 1 := ⟨i - 1, by omega⟩
      have e1 : 2 * (n + 1) - 1 = 2 * n + 1 := by omega
      have e2 : 2 * (n + 1) = 2 * n + 1 + 1 := by omega
      have e3 : n + 1 - 1 = n := by omega
      rw [e1, e2, e3]
      rw [h (2 * n) (by omega), h (2 * n + 1) (by omega), h (2 * n + 1 + 1) (by omega)]
      rw [h (2 * n + 1 + 1 + 1) (by omega)]
      refine (genPair_steps opt _ _ n (by omega) _ _ (pair n)).mpr ?_
      exact pair (n + 1)

/-- **C57.** The Kuznechik encoder computes the encryption of RFC 7801, with either multiplication back end. -/
theorem kuznechik_encode_is_standard (opt : Bool) (key : BitVec 256) (inp out : BitVec 128) :
    IsKuznechikEncrypt key inp out ↔ out = kuznechikEncode opt key inp := by
  have hs : ∀ n u, (List.range (n + 1)).foldl (fun v i => xsl opt (gKey opt key i) v) u =
      xsl opt (gKey opt key n) ((List.range n).foldl (fun v i => xsl opt (gKey opt key i) v) u) := by
    intro n u; rw [List.range_succ, List.foldl_append]; simp only [List.foldl_cons, List.foldl_nil]
  unfold IsKuznechikEncrypt kuznechikEncode
  constructor
  · rintro ⟨k, hk, s, h0, hst, ho⟩
    rw [isKeys_iff opt] at hk
    have : ∀ n, n ≤ 9 → s n = (List.range n).foldl (fun v i => xsl opt (gKey opt key i) v) inp := by
      intro n
      induction n with
      | zero => intro _; exact h0
      | succ m ih =>
        intro hm
        have := hst m (by omega)
        rw [isLSX_iff opt, hk m (by omega), ih (by omega)] at this
        rw [hs]; exact this
    rw [ho, hk 9 (by omega), this 9 (by omega), BitVec.xor_comm]
  · rintro rfl
    refine ⟨fun i => gKey opt key (i - 1), (isKeys_iff opt key _).mpr fun i _ => rfl,
      fun n => (List.range n).foldl (fun v i => xsl opt (gKey opt key i) v) inp, rfl, fun i hi => ?_, ?_⟩
    · exact (isLSX_iff opt _ _ _).mpr (hs i inp)
    · exact BitVec.xor_comm _ _

/-- **C57.** The Kuznechik decoder computes the decryption of RFC 7801. -/
theorem kuznechik_decode_is_standard (opt : Bool) (key : BitVec 256) (inp out : BitVec 128) :
    IsKuznechikDecrypt key inp out ↔ out = kuznechikDecode opt key inp := by
  unfold IsKuznechikDecrypt
  rw [kuznechik_encode_is_standard opt]
  constructor
  · rintro rfl; exact (kuznechik_decode_encode opt key out).symm
  · rintro rfl; exact (kuznechik_encode_decode opt key inp).symm

set_option maxRecDepth 100000 in
theorem kuznechik_vector : (kuznechikEncode true 0x8899aabbccddeeff0011223344556677fedcba98765432100123456789abcdef#256
    0x1122334455667700ffeeddccbbaa9988#128 == 0x7f679d90bebc24305a468d42b9d4edcd#128) = true := by decide +kernel

/-- RFC 7801, 5.5: the test vector of the standard. -/
example : IsKuznechikEncrypt 0x8899aabbccddeeff0011223344556677fedcba98765432100123456789abcdef#256
    0x1122334455667700ffeeddccbbaa9988#128 0x7f679d90bebc24305a468d42b9d4edcd#128 :=
  (kuznechik_encode_is_standard true _ _ _).mpr (eq_of_beq kuznechik_vector).symm

end Verif.Std
