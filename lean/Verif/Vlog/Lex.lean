import Verif.Vlog.Spec
import Verif.Vlog.Parsed
/-
Lexical analysis of texts made of constant parts, names and numbers.
-/
namespace Verif.Vlog
open Verif.Tpl

/-! ### Scanning is compositional -/

theorem scan_append (st : St) (a b : List Char) :
    scan st (a ++ b) = ((scan st a).1 ++ (scan (scan st a).2 b).1, (scan (scan st a).2 b).2) := by
  induction a generalizing st with
  | nil => simp [scan]
  | cons c a ih => simp [scan, ih]

/-- An identifier that is not reserved. -/
structure Ident (w : List Char) : Prop where
  first : ∃ c r, w = c :: r ∧ wordStart c = true
  chars : ∀ c ∈ w, wordChar c = true
  free : wordTok w = .id (String.ofList w)

theorem scan_word (w : List Char) (h : ∀ c ∈ w, wordChar c = true) (p : List Char) : scan (.word p) w = ([], .word (w.reverse ++ p)) := by
  induction w generalizing p with
  | nil => rfl
  | cons c w ih =>
    have hc := h c List.mem_cons_self
    simp only [scan, step, hc, if_true]
    rw [ih (fun d hd => h d (List.mem_cons_of_mem _ hd))]
    simp

theorem wordStart_facts {c : Char} (h : wordStart c = true) : isBlank c = false := by
  unfold isBlank
  simp only [Bool.or_eq_false_iff, decide_eq_false_iff_not]
  refine ⟨⟨⟨⟨?_, ?_⟩, ?_⟩, ?_⟩, ?_⟩ <;> rintro rfl <;> revert h <;> decide

theorem scan_ident {w : List Char} (h : Ident w) : scan .idle w = ([], .word w.reverse) := by
  obtain ⟨c, r, rfl, hc⟩ := h.first
  simp only [scan, step, start, wordStart_facts hc, hc, if_true, Bool.false_eq_true, if_false]
  rw [scan_word r (fun d hd => h.chars d (List.mem_cons_of_mem _ hd))]
  simp

theorem scan_comment {w : List Char} (h : ∀ c ∈ w, c ≠ '\n') : scan .comment w = ([], .comment) := by
  induction w with
  | nil => rfl
  | cons c w ih =>
    simp only [scan, step, if_neg (h c List.mem_cons_self), ih (fun d hd => h d (List.mem_cons_of_mem _ hd)), List.nil_append]

theorem Ident.noNewline {w : List Char} (h : Ident w) : ∀ c ∈ w, c ≠ '\n' := by
  rintro c hc rfl
  exact absurd (h.chars _ hc) (by decide)

theorem scan_digits (w : List Char) (h : ∀ c ∈ w, c.isDigit = true) (p : List Char) : scan (.num p) w = ([], .num (w.reverse ++ p)) := by
  induction w generalizing p with
  | nil => rfl
  | cons c w ih =>
    have hc := h c List.mem_cons_self
    simp only [scan, step, hc, if_true]
    rw [ih (fun d hd => h d (List.mem_cons_of_mem _ hd))]
    simp

theorem digit_start {c : Char} (h : c.isDigit = true) : isBlank c = false ∧ wordStart c = false := by
  simp only [Char.isDigit, ge_iff_le, Bool.and_eq_true, decide_eq_true_eq] at h
  have h1 : c.val.toNat ≥ 48 := h.1
  have h2 : c.val.toNat ≤ 57 := h.2
  constructor
  · unfold isBlank
    simp only [Bool.or_eq_false_iff, decide_eq_false_iff_not]
    refine ⟨⟨⟨⟨?_, ?_⟩, ?_⟩, ?_⟩, ?_⟩ <;> rintro rfl <;> revert h1 <;> decide
  · unfold wordStart
    rw [Bool.or_eq_false_iff]
    refine ⟨?_, ?_⟩
    · rw [Bool.eq_false_iff]
      intro hh
      simp only [Char.isAlpha, Char.isUpper, Char.isLower, ge_iff_le, Bool.or_eq_true, Bool.and_eq_true, decide_eq_true_eq] at hh
      rcases hh with ⟨hh, -⟩ | ⟨hh, -⟩
      · have : 65 ≤ c.val.toNat := hh
        omega
      · have : 97 ≤ c.val.toNat := hh
        omega
    · rw [decide_eq_false_iff_not]
      rintro rfl
      revert h2; decide

/-! ### Decimal numbers -/

theorem dec_digits (n : Nat) : ∀ c ∈ Hw.dec n, c.isDigit = true := by
  intro c hc
  exact Nat.isDigit_of_mem_toDigits (by decide) (by decide) hc

theorem value_dec (n : Nat) : value 10 (Hw.dec n) = n := by
  have h : Nat.ofDigitChars 10 (Nat.toDigits 10 n) 0 = n := Nat.ofDigitChars_toDigits (by omega) (by omega)
  refine Eq.trans ?_ h
  unfold value Hw.dec Nat.ofDigitChars
  have key : ∀ (l : List Char) (a : Nat), (∀ c ∈ l, c.isDigit = true) →
      l.foldl (fun a c => 10 * a + digitVal c) a = l.foldl (fun sofar c => 10 * sofar + (c.toNat - '0'.toNat)) a := by
    intro l
    induction l with
    | nil => intro a _; rfl
    | cons c l ih =>
      intro a hl
      have : digitVal c = c.toNat - '0'.toNat := by
        unfold digitVal
        rw [if_pos (hl c List.mem_cons_self)]; rfl
      rw [List.foldl_cons, List.foldl_cons, this]
      exact ih _ fun d hd => hl d (List.mem_cons_of_mem _ hd)
  exact key _ _ (dec_digits n)

theorem scan_dec (n : Nat) : scan .idle (Hw.dec n) = ([], .num (Hw.dec n).reverse) := by
  obtain ⟨c, r, e⟩ := List.exists_cons_of_ne_nil (l := Hw.dec n) Nat.toDigits_ne_nil
  have hd := dec_digits n
  rw [e] at hd ⊢
  obtain ⟨h1, h2⟩ := digit_start (hd c List.mem_cons_self)
  simp only [scan, step, start, h1, h2, hd c List.mem_cons_self, if_true, Bool.false_eq_true, if_false]
  rw [scan_digits r (fun d hd' => hd d (List.mem_cons_of_mem _ hd'))]
  simp

/-! ### Pieces -/

/-- The operator symbols. -/
def opTok : Hw.VOp → Sym
  | .add => .plus
  | .sub => .minus
  | .mul => .star
  | .le => .le
  | .ge => .ge
  | .lt => .lt
  | .gt => .gt
  | .eq => .eqeq
  | .ne => .ne
  | .and => .amp
  | .or => .bar
  | .xor => .caret

inductive Piece where
  | lit (l : List Char)
  | ident (w : List Char)
  | num (n : Nat)
  | op (o : Hw.VOp)
  /-- `signed ` or nothing. -/
  | sgn (b : Bool)

def Piece.text : Piece → List Char
  | .lit l => l
  | .ident w => w
  | .num n => Hw.dec n
  | .op o => opChars o
  | .sgn b => if b then chars% "signed " else []

def textOf (ps : List Piece) : List Char := ps.flatMap Piece.text

/-- Is the next piece a constant that begins with a character that ends a word (a number)? -/
def endsWord : List Piece → Bool
  | .lit (c :: _) :: _ => !wordChar c
  | _ => false

def endsNum : List Piece → Bool
  | .lit (c :: _) :: _ => !c.isDigit && decide (c ≠ '\'')
  | _ => false

def endsOp : List Piece → Bool
  | .lit (c :: _) :: _ => isBlank c
  | _ => false

/-- The tokens of pieces; constants are scanned, the others must not touch what surrounds them. -/
def scanP : St → List Piece → Option (List Tok × St)
  | st, [] => some ([], st)
  | st, .lit l :: ps => (scanP (scan st l).2 ps).map fun r => ((scan st l).1 ++ r.1, r.2)
  | .idle, .ident w :: ps => if endsWord ps then (scanP .idle ps).map fun r => (.id (String.ofList w) :: r.1, r.2) else none
  | .comment, .ident _ :: ps => scanP .comment ps
  | .idle, .num n :: ps => if endsNum ps then (scanP .idle ps).map fun r => (.num n :: r.1, r.2) else none
  | .idle, .op o :: ps => if endsOp ps then (scanP .idle ps).map fun r => (.sym (opTok o) :: r.1, r.2) else none
  | .idle, .sgn b :: ps => (scanP .idle ps).map fun r => (if b then .kw .signed :: r.1 else r.1, r.2)
  | _, _ => none

theorem endsWord_eq {ps : List Piece} (h : endsWord ps = true) : ∃ c l, textOf ps = c :: l ∧ wordChar c = false := by
  unfold endsWord at h
  split at h
  · exact ⟨_, _, rfl, by simpa using h⟩
  · cases h

theorem endsNum_eq {ps : List Piece} (h : endsNum ps = true) : ∃ c l, textOf ps = c :: l ∧ c.isDigit = false ∧ c ≠ '\'' := by
  unfold endsNum at h
  split at h
  · simp only [Bool.and_eq_true, Bool.not_eq_true', decide_eq_true_eq] at h
    exact ⟨_, _, rfl, h⟩
  · cases h

theorem endsOp_eq {ps : List Piece} (h : endsOp ps = true) : ∃ c l, textOf ps = c :: l ∧ isBlank c = true := by
  unfold endsOp at h
  split at h
  · exact ⟨_, _, rfl, h⟩
  · cases h

theorem blank_cases {c : Char} (h : isBlank c = true) : c = ' ' ∨ c = '\t' ∨ c = '\n' ∨ c = '\r' ∨ c = '\x0c' := by
  unfold isBlank at h
  simpa [or_assoc] using h

theorem scan_after {st : St} {t : Tok} {c : Char} (l : List Char) (h : step st c = after t c) :
    scan st (c :: l) = (t :: (scan .idle (c :: l)).1, (scan .idle (c :: l)).2) := by
  rw [scan, h, scan]
  rfl

/-- The tokens of pieces are those of their text. -/
theorem scanP_sound : ∀ (ps : List Piece) (st : St) (r : List Tok × St), (∀ w, .ident w ∈ ps → Ident w) → scanP st ps = some r →
    scan st (textOf ps) = r := by
  intro ps
  induction ps with
  | nil => intro st r _ h; rw [scanP] at h; cases h; rfl
  | cons p ps ih =>
    intro st r hid h
    have hid' : ∀ w, .ident w ∈ ps → Ident w := fun w hw => hid w (List.mem_cons_of_mem _ hw)
    have et : textOf (p :: ps) = p.text ++ textOf ps := rfl
    rw [et, scan_append]
    cases p with
    | lit l =>
      rw [scanP] at h
      obtain ⟨q, hq, rfl⟩ := Option.map_eq_some_iff.mp h
      show (_ ++ (scan _ _).1, _) = _
      rw [Piece.text, ih _ _ hid' hq]
    | ident w =>
      have hw := hid w List.mem_cons_self
      cases st with
      | idle =>
        rw [scanP] at h
        split at h
        · rename_i he
          obtain ⟨q, hq, rfl⟩ := Option.map_eq_some_iff.mp h
          obtain ⟨c, l, e, hc⟩ := endsWord_eq he
          have := ih _ _ hid' hq
          rw [Piece.text, scan_ident hw, e, scan_after (t := .id (String.ofList w)) l (by simp [step, hc, hw.free]), ← e, this]
          rfl
        · cases h
      | comment =>
        rw [scanP] at h
        rw [Piece.text, scan_comment hw.noNewline, ih _ _ hid' h]
        rfl
      | _ => simp [scanP] at h
    | num n =>
      cases st with
      | idle =>
        rw [scanP] at h
        split at h
        · rename_i he
          obtain ⟨q, hq, rfl⟩ := Option.map_eq_some_iff.mp h
          obtain ⟨c, l, e, hc, hc'⟩ := endsNum_eq he
          have := ih _ _ hid' hq
          rw [Piece.text, scan_dec, e, scan_after (t := .num n) l (by simp [step, hc, hc', value_dec]), ← e, this]
          rfl
        · cases h
      | _ => simp [scanP] at h
    | op o =>
      cases st with
      | idle =>
        rw [scanP] at h
        split at h
        · rename_i he
          obtain ⟨q, hq, rfl⟩ := Option.map_eq_some_iff.mp h
          obtain ⟨c, l, e, hc⟩ := endsOp_eq he
          have := ih _ _ hid' hq
          rw [Piece.text, e]
          rw [e] at this
          cases o with
          | lt | gt =>
            show (_ ++ (scan (.op _) _).1, (scan (.op _) _).2) = _
            rw [scan_after (t := .sym _) l (by rcases blank_cases hc with rfl | rfl | rfl | rfl | rfl <;> rfl), this]
            rfl
          | _ =>
            show (_ ++ (scan .idle _).1, (scan .idle _).2) = _
            rw [this]; rfl
        · cases h
      | _ => simp [scanP] at h
    | sgn b =>
      cases st with
      | idle =>
        rw [scanP] at h
        obtain ⟨q, hq, rfl⟩ := Option.map_eq_some_iff.mp h
        have := ih _ _ hid' hq
        cases b
        · show (_ ++ (scan .idle _).1, (scan .idle _).2) = _
          rw [this]; rfl
        · show (_ ++ (scan .idle _).1, (scan .idle _).2) = _
          rw [this]; rfl
      | _ => simp [scanP] at h

/-! ### Templates as pieces -/

/-- A section's body as pieces, given the pieces for its variables. -/
def pieces (val : String → List Piece) : List Node → List Piece
  | [] => []
  | .text t :: ns => .lit t :: pieces val ns
  | .var n :: ns => val n ++ pieces val ns
  | .sec _ _ :: ns => pieces val ns

def varsOf : List Node → List String
  | [] => []
  | .var n :: ns => n :: varsOf ns
  | _ :: ns => varsOf ns

def flat : List Node → Bool
  | [] => true
  | .sec _ _ :: _ => false
  | _ :: ns => flat ns

theorem expand_pieces {ds : List Dict} {val : String → List Piece} : ∀ {ns : List Node}, flat ns = true →
    (∀ n ∈ varsOf ns, valueIn n ds = textOf (val n)) → expandAll ds ns = textOf (pieces val ns)
  | [], _, _ => by rw [expandAll]; rfl
  | .text t :: ns, hf, h => by
    rw [expandAll, expand, expand_pieces (by simpa [flat] using hf) (by simpa [varsOf] using h)]; rfl
  | .var n :: ns, hf, h => by
    rw [expandAll, expand, h n (by simp [varsOf]), expand_pieces (by simpa [flat] using hf) (fun m hm => h m (by simp [varsOf, hm]))]
    simp [pieces, textOf]
  | .sec _ _ :: ns, hf, _ => by simp [flat] at hf

end Verif.Vlog
