import Verif.Cli.Lemmas
/-
Numbers of stages.
-/
namespace Verif.Cli
open Spec

theorem digits_append (b : Nat) : ∀ (l : List Char) (acc : Nat) (r : List Char), digits b acc (l ++ r) = (digits b acc l).bind fun m => digits b m r
  | [], acc, r => rfl
  | c :: l, acc, r => by
    simp only [List.cons_append, digits]
    split
    · split
      · exact digits_append b l _ r
      · rfl
    · rfl

theorem digit_digitChar {n : Nat} (h : n < 10) : digit n.digitChar = some n := by
  have : n = 0 ∨ n = 1 ∨ n = 2 ∨ n = 3 ∨ n = 4 ∨ n = 5 ∨ n = 6 ∨ n = 7 ∨ n = 8 ∨ n = 9 := by omega
  rcases this with rfl | rfl | rfl | rfl | rfl | rfl | rfl | rfl | rfl | rfl <;> decide

theorem digitChar_ne_zero {n : Nat} (h : n < 10) (h0 : 0 < n) : n.digitChar ≠ '0' := by
  have : n = 1 ∨ n = 2 ∨ n = 3 ∨ n = 4 ∨ n = 5 ∨ n = 6 ∨ n = 7 ∨ n = 8 ∨ n = 9 := by omega
  rcases this with rfl | rfl | rfl | rfl | rfl | rfl | rfl | rfl | rfl <;> decide

theorem digits_toDigits (n : Nat) : digits 10 0 (Nat.toDigits 10 n) = some n := by
  induction n using Nat.strongRecOn with
  | _ n ih =>
    by_cases h : n < 10
    · rw [Nat.toDigits_of_lt_base h]
      simp [digits, digit_digitChar h, h]
    · have hm : n % 10 < 10 := Nat.mod_lt _ (by omega)
      rw [Nat.toDigits_of_base_le (by omega) (by omega), digits_append, ih (n / 10) (by omega)]
      simp only [Option.bind_some, digits, digit_digitChar hm, hm, if_true]
      congr 1
      omega

theorem toDigits_head {n : Nat} (h : 0 < n) : ∃ c r, Nat.toDigits 10 n = c :: r ∧ c ≠ '0' := by
  induction n using Nat.strongRecOn with
  | _ n ih =>
    by_cases h' : n < 10
    · exact ⟨_, [], Nat.toDigits_of_lt_base h', digitChar_ne_zero h' h⟩
    · obtain ⟨c, r, e, hc⟩ := ih (n / 10) (by omega) (by omega)
      exact ⟨c, r ++ [(n % 10).digitChar], by rw [Nat.toDigits_of_base_le (by omega) (by omega), e]; rfl, hc⟩

theorem isDigit_of_digit {c : Char} {d : Nat} (h : digit c = some d) (hd : d < 10) : c.isDigit = true := by
  unfold digit at h
  split at h
  · rename_i hc
    unfold Char.isDigit
    simp only [Bool.and_eq_true, decide_eq_true_eq]
    exact hc
  · split at h
    · simp only [Option.some.injEq] at h; omega
    · split at h
      · simp only [Option.some.injEq] at h; omega
      · cases h

theorem isDigit_of_digits : ∀ {l : List Char} {acc n : Nat}, digits 10 acc l = some n → ∀ c ∈ l, c.isDigit = true
  | [], _, _, _, c, hc => absurd hc (by simp)
  | x :: l, acc, n, h, c, hc => by
    unfold digits at h
    split at h
    · rename_i d hd
      split at h
      · rename_i hlt
        rcases List.mem_cons.mp hc with rfl | hc
        · exact isDigit_of_digit hd hlt
        · exact isDigit_of_digits h c hc
      · cases h
    · cases h

theorem prefixed_plain {c : Char} {r : List Char} (h0 : c ≠ '0') : prefixed (c :: r) = digits 10 0 (c :: r) := by
  unfold prefixed
  split
  · rename_i e; cases e
  · rename_i e; simp only [List.cons.injEq] at e; exact absurd e.1 h0
  · rename_i e; simp only [List.cons.injEq] at e; exact absurd e.1 h0
  · rfl

theorem strtoull_plain {c : Char} {r : List Char} (hs : isSpace c = false) (hm : c ≠ '-') (hp : c ≠ '+') :
    strtoull (c :: r) = (prefixed (c :: r)).map fun n => min n (2 ^ 64 - 1) := by
  unfold strtoull
  rw [List.dropWhile_cons, if_neg (by rw [hs]; simp)]
  split
  · rename_i e; simp only [List.cons.injEq] at e; exact absurd e.1 hm
  · rename_i e; simp only [List.cons.injEq] at e; exact absurd e.1 hp
  · rfl

theorem digit_not {c : Char} (h : c.isDigit = true) : isSpace c = false ∧ c ≠ '-' ∧ c ≠ '+' := by
  refine ⟨?_, ?_, ?_⟩
  · unfold isSpace
    have : ∀ d : Char, d.isDigit = false → (c == d) = false := fun d hd => by
      rw [beq_eq_false_iff_ne]; rintro rfl; rw [h] at hd; cases hd
    rw [this ' ' (by decide), this '\t' (by decide), this '\n' (by decide), this '\x0b' (by decide), this '\x0c' (by decide),
      this '\r' (by decide)]
    rfl
  · rintro rfl; exact absurd h (by decide)
  · rintro rfl; exact absurd h (by decide)

theorem ne_empty {v : String} {c : Char} {r : List Char} (h : v.toList = c :: r) : v ≠ "" := by
  rintro rfl; simp at h

/-- A decimal number is read as that number. -/
theorem stagesOf_decimal {v : String} {n : Nat} (h : Decimal v n) : stagesOf v = some n := by
  obtain ⟨rfl, hn⟩ := h
  have ht : (Nat.repr n).toList = Nat.toDigits 10 n := by rw [Nat.repr_eq_ofList_toDigits, String.toList_ofList]
  rcases Nat.eq_zero_or_pos n with rfl | hpos
  · decide
  · obtain ⟨c, r, e, hc⟩ := toDigits_head hpos
    rw [e] at ht
    have hd : c.isDigit = true := isDigit_of_digits (digits_toDigits n) c (by rw [e]; simp)
    obtain ⟨h1, h2, h3⟩ := digit_not hd
    unfold stagesOf
    rw [if_neg (ne_empty ht), ht, strtoull_plain h1 h2 h3, prefixed_plain hc, ← e, digits_toDigits]
    simp only [Option.map_some, Option.some.injEq]
    omega

/-- What is certainly not a number is not taken for one. -/
theorem stagesOf_notNumber {v : String} (h : NotNumber v) : stagesOf v = none := by
  rcases h with rfl | ⟨c, r, e, h⟩
  · decide
  unfold stagesOf
  rw [if_neg (ne_empty e), e]
  rcases h with ⟨h1, h2, h3, h4, h5, h6⟩ | ⟨h1, h2, d, hd, h3⟩
  · have h0 : c ≠ '0' := by rintro rfl; exact absurd h1 (by decide)
    have hs : isSpace c = false := by
      unfold Char.isWhitespace at h4
      unfold isSpace
      simp only [Bool.or_eq_false_iff, decide_eq_false_iff_not] at h4 ⊢
      simp only [beq_eq_false_iff_ne]
      exact ⟨⟨⟨⟨⟨h4.1.1.1, h4.1.1.2⟩, h4.2⟩, h5⟩, h6⟩, h4.1.2⟩
    rw [strtoull_plain hs h3 h2, prefixed_plain h0]
    cases hx : digits 10 0 (c :: r) with
    | none => rfl
    | some n => rw [isDigit_of_digits hx c (by simp)] at h1; cases h1
  · obtain ⟨hs, hm, hp⟩ := digit_not h1
    rw [strtoull_plain hs hm hp, prefixed_plain h2]
    cases hx : digits 10 0 (c :: r) with
    | none => rfl
    | some n => rw [isDigit_of_digits hx d (by simp [hd])] at h3; cases h3

end Verif.Cli
