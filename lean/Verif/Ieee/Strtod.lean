import Verif.Ieee.Unique
import Verif.Json.Examples
import Verif.Json.Exact
/-
C91, C89.  `std::strtod` rounds correctly: the numbers of configuration files (lexer.hpp:912, parser.hpp:261, from_json.hpp:344-378).
-/
namespace Verif.Ieee
open Verif.Json Verif.Config

/-! ### Specification -/

/-- The number an exponent part denotes. -/
def expOf : Option (Nat × Bytes × Bytes) → Int
  | none => 0
  | some (_, s, d) => if s = [45] then -(decimal d : Int) else decimal d

/-- The number a literal denotes (RFC 8259, section 6). -/
def number (n : NumLit) : ℚ :=
  (if n.neg then -1 else 1) * (decimal (n.int ++ n.frac.getD []) * (10 : ℚ) ^ (expOf n.exp - (n.frac.getD []).length))

/-- Conversion of a `double` to an integer type cuts off the fraction (C++ [conv.fpint]). -/
def cut (q : ℚ) : Int := if 0 ≤ q then ⌊q⌋ else -⌊-q⌋

/-! ### The library -/

/-- The parts of a text that is a number literal. -/
def unsignedLit (neg : Bool) (t : Bytes) : NumLit :=
  let i := spanDigits t
  let fr : Option Bytes × Bytes := match i.2 with
    | 46 :: r => (some (spanDigits r).1, (spanDigits r).2)
    | r => (none, r)
  ⟨neg, i.1, fr.1, match fr.2 with
    | [] => none
    | l :: 43 :: d => some (l, [43], d)
    | l :: 45 :: d => some (l, [45], d)
    | l :: d => some (l, [], d)⟩

def litOf : Bytes → NumLit
  | 45 :: t => unsignedLit true t
  | t => unsignedLit false t

/-- `std::strtod` on the text of a number (the whole text is read). -/
def strtod (t : Bytes) : Nat := binary64.enc (.num (litOf t).neg (number (litOf t)))

/-- What the program sees of `double`s: `std::isfinite`, and the conversion to an integer type. -/
def machine : Doubles where
  finite t := decide (binary64.expo (strtod t) ≠ 2 ^ binary64.w - 1)
  trunc t := cut (binary64.value (strtod t))

/-! ### Proofs -/

theorem noDigit_nil : NoDigit [] := by intro c s h; cases h

theorem noDigit_exp {e : Option (Nat × Bytes × Bytes)} (he : ∀ l s d, e = some (l, s, d) → l = 101 ∨ l = 69) : NoDigit (expText e) := by
  cases e with
  | none => exact noDigit_nil
  | some q =>
    intro c s h
    have := he q.1 q.2.1 q.2.2 rfl
    simp only [expText, List.cons.injEq] at h
    unfold digit; omega

theorem unsignedLit_text {n : NumLit} (h : n.Ok) (b : Bool) : unsignedLit b (n.int ++ fracText n.frac ++ expText n.exp) = { n with neg := b } := by
  obtain ⟨neg, i, fr, e⟩ := n
  obtain ⟨h1, h2, h3⟩ := h
  simp only at h1 h2 h3
  have he := noDigit_exp (e := e) fun l s d hh => (h3 l s d hh).1
  have hx : (match expText e with
      | [] => none
      | l :: 43 :: d => some (l, [43], d)
      | l :: 45 :: d => some (l, [45], d)
      | l :: d => some (l, [], d)) = e := by
    cases e with
    | none => rfl
    | some q =>
      obtain ⟨l, s, d⟩ := q
      obtain ⟨-, g2, g3, g4⟩ := h3 l s d rfl
      rcases g2 with rfl | rfl | rfl
      · obtain ⟨d0, d, rfl⟩ := List.exists_cons_of_ne_nil g3
        have := g4 d0 (List.mem_cons_self ..)
        unfold digit at this
        simp only [expText, List.nil_append]
        split
        · rename_i hh; simp at hh
        · rename_i hh; simp at hh; omega
        · rename_i hh; simp at hh; omega
        · rename_i hh; simp only [List.cons.injEq] at hh; obtain ⟨rfl, rfl⟩ := hh; rfl
      · rfl
      · rfl
  unfold unsignedLit
  cases fr with
  | none =>
    simp only [fracText, List.append_nil]
    rw [spanDigits_append h1.2.1 he]
    simp only
    have : (match expText e with
        | 46 :: r => (some (spanDigits r).1, (spanDigits r).2)
        | r => ((none : Option Bytes), r)) = (none, expText e) := by
      split
      · rename_i hh
        cases e with
        | none => cases hh
        | some q =>
          have := (h3 q.1 q.2.1 q.2.2 rfl).1
          simp only [expText, List.cons.injEq] at hh
          omega
      · rfl
    rw [this]
    simp only [hx]
  | some ds =>
    have hnd : NoDigit (fracText (some ds) ++ expText e) := by
      intro c s hh
      simp only [fracText, List.cons_append, List.cons.injEq] at hh
      unfold digit; omega
    rw [List.append_assoc, spanDigits_append h1.2.1 hnd]
    simp only [fracText, List.cons_append]
    rw [spanDigits_append (h2 ds rfl).2 he]
    simp only [hx]

theorem litOf_text {n : NumLit} (h : n.Ok) : litOf n.text = n := by
  have hu := fun b => unsignedLit_text h b
  unfold NumLit.text
  cases hn : n.neg with
  | true =>
    simp only [if_true, List.cons_append, List.nil_append, litOf]
    rw [hu, ← hn]
  | false =>
    simp only [Bool.false_eq_true, if_false, List.nil_append]
    obtain ⟨d0, r, hd⟩ := List.exists_cons_of_ne_nil h.int.1
    have h0 := h.int.2.1 d0 (by rw [hd]; exact List.mem_cons_self ..)
    unfold digit at h0
    have : litOf (n.int ++ fracText n.frac ++ expText n.exp) = unsignedLit false (n.int ++ fracText n.frac ++ expText n.exp) := by
      rw [hd]
      simp only [List.cons_append]
      unfold litOf
      split
      · rename_i hh
        simp only [List.cons.injEq] at hh
        omega
      · rfl
    rw [this, hu, ← hn]

/-- The text of a number is read as the nearest `double`. -/
theorem strtod_nearest {n : NumLit} (h : n.Ok) : binary64.Is (strtod n.text) (number n) n.neg := by
  unfold strtod; rw [litOf_text h]; exact binary64.enc_num _ _

theorem overflow64 : binary64.overflow = 2 ^ 1024 - 2 ^ 970 := by
  unfold Fmt.overflow binary64; norm_num

/-- Which numbers are accepted: those below 2^1024 - 2^970. -/
theorem machine_finite {n : NumLit} (h : n.Ok) : machine.finite n.text = true ↔ |number n| < 2 ^ 1024 - 2 ^ 970 := by
  have hr := (strtod_nearest h).rounds
  have hd : machine.finite n.text = true ↔ binary64.IsFinite (strtod n.text) := decide_eq_true_iff
  rw [hd, ← overflow64]
  constructor
  · intro hf
    by_contra hge
    exact binary64.not_inf_of_finite hf (hr.inf (not_lt.1 hge))
  · exact hr.finite

/-- The number of stages a number with a fraction or an exponent stands for: the nearest `double`, its fraction cut off, if that is within 16 bits. -/
theorem machine_stages {n : NumLit} (h : n.Ok) (hv : n.val = .float n.text) (k : Nat) :
    Stages machine n.val k ↔ k < 65536 ∧ ∃ b < 2 ^ 64, binary64.Is b (number n) n.neg ∧ cut (binary64.value b) = k := by
  have hs : strtod n.text < 2 ^ 64 := by
    have h1 := binary64.round_spec (abs_nonneg (number (litOf n.text)))
    have h2 := binary64.top_lt
    show binary64.sgn _ + binary64.round |number (litOf n.text)| < 2 ^ 64
    have h3 : 2 ^ (binary64.p + binary64.w) = 2 ^ 63 := rfl
    unfold Fmt.sgn
    rw [h3] at h2 ⊢
    split_ifs <;> omega
  rw [hv]
  constructor
  · intro hst
    cases hst with
    | float h1 h2 => exact ⟨h2, _, hs, strtod_nearest h, h1⟩
  · rintro ⟨hk, b, hb, hi, hc⟩
    refine .float ?_ hk
    have e := binary64.is_unique hb hi
    show cut (binary64.value (strtod n.text)) = k
    rw [show strtod n.text = b by rw [e]; unfold strtod; rw [litOf_text h]]
    exact hc

end Verif.Ieee
