import Verif.Json.Lex
/-
C89: numbers and the other tokens.
-/
namespace Verif.Json

/-- After a value: the end of the text, or a byte that is part of no value. -/
def Sep (r : Bytes) : Prop := ∀ c s, r = c :: s → c = 32 ∨ c = 9 ∨ c = 10 ∨ c = 13 ∨ c = 44 ∨ c = 93 ∨ c = 125 ∨ c = 0

/-- The text does not begin with a digit. -/
def NoDigit (r : Bytes) : Prop := ∀ c s, r = c :: s → ¬ digit c

theorem Sep.noDigit {r : Bytes} (h : Sep r) : NoDigit r := by
  intro c s e
  have := h c s e
  unfold digit
  omega

theorem spanDigits_append {ds : Bytes} (h : ∀ c ∈ ds, digit c) {r : Bytes} (hr : NoDigit r) : spanDigits (ds ++ r) = (ds, r) := by
  induction ds with
  | nil =>
    cases r with
    | nil => rfl
    | cons c s =>
      have := hr c s rfl
      unfold digit at this
      rw [List.nil_append, spanDigits, if_neg this]
  | cons d ds ih =>
    have hd := h d (List.mem_cons_self ..)
    unfold digit at hd
    rw [List.cons_append, spanDigits, if_pos hd, ih fun c hc => h c (List.mem_cons_of_mem _ hc)]

theorem spanDigits_sound (s : Bytes) : s = (spanDigits s).1 ++ (spanDigits s).2 ∧ ∀ c ∈ (spanDigits s).1, digit c := by
  induction s with
  | nil => exact ⟨rfl, by simp [spanDigits]⟩
  | cons c s ih =>
    unfold spanDigits
    split
    · rename_i hc
      refine ⟨by rw [List.cons_append, ← ih.1], fun d hd => ?_⟩
      rcases List.mem_cons.mp hd with rfl | hd
      · exact hc
      · exact ih.2 d hd
    · exact ⟨rfl, by simp⟩

def FracOk (f : Option Bytes) : Prop := ∀ ds, f = some ds → ds ≠ [] ∧ ∀ c ∈ ds, digit c

def ExpOk (e : Option (Nat × Bytes × Bytes)) : Prop :=
  ∀ l s d, e = some (l, s, d) → (l = 101 ∨ l = 69) ∧ (s = [] ∨ s = [43] ∨ s = [45]) ∧ d ≠ [] ∧ ∀ c ∈ d, digit c

theorem scanTail_complete {e : Option (Nat × Bytes × Bytes)} (he : ExpOk e) {r : Bytes} (hr : Sep r) (fl : Bool) :
    scanTail fl (expText e ++ r) = some (expText e, fl || e.isSome, r) := by
  cases e with
  | none =>
    cases r with
    | nil => simp [expText, scanTail]
    | cons c s =>
      have := hr c s rfl
      simp only [expText, List.nil_append, scanTail]
      rw [if_neg (by omega)]
      simp
  | some q =>
    obtain ⟨l, sg, d⟩ := q
    obtain ⟨h1, h2, h3, h4⟩ := he l sg d rfl
    obtain ⟨d0, ds, rfl⟩ := List.exists_cons_of_ne_nil h3
    have hd0 : 48 ≤ d0 ∧ d0 ≤ 57 := h4 d0 (List.mem_cons_self ..)
    have hsp := spanDigits_append (fun c hc => h4 c (List.mem_cons_of_mem _ hc)) hr.noDigit
    have key : scanExp (sg ++ d0 :: ds ++ r) = some (sg ++ d0 :: ds, r) := by
      rcases h2 with rfl | rfl | rfl
      · simp only [List.nil_append, List.cons_append, scanExp]
        rw [if_neg (by omega), if_pos hd0, hsp]
      · simp only [List.nil_append, List.cons_append, scanExp]
        rw [if_pos (by simp), if_pos hd0, hsp]
      · simp only [List.nil_append, List.cons_append, scanExp]
        rw [if_pos (by simp), if_pos hd0, hsp]
    simp only [expText, List.cons_append, scanTail]
    rw [if_pos h1, key]
    simp

theorem scanRest_complete {f : Option Bytes} (hf : FracOk f) {e : Option (Nat × Bytes × Bytes)} (he : ExpOk e) {r : Bytes} (hr : Sep r) :
    scanRest (fracText f ++ expText e ++ r) = some (fracText f ++ expText e, f.isSome || e.isSome, r) := by
  have tl := fun fl => scanTail_complete he hr fl
  cases f with
  | none =>
    rw [fracText, List.nil_append, scanRest]
    · simpa using tl false
    · intro s hs
      cases e with
      | none =>
        have := hr 46 s hs
        omega
      | some q =>
        have h := (he q.1 q.2.1 q.2.2 rfl).1
        simp only [expText, List.cons_append, List.cons.injEq] at hs
        omega
  | some ds =>
    obtain ⟨h1, h2⟩ := hf ds rfl
    obtain ⟨d0, ds, rfl⟩ := List.exists_cons_of_ne_nil h1
    have hd0 : 48 ≤ d0 ∧ d0 ≤ 57 := h2 d0 (List.mem_cons_self ..)
    have hnd : NoDigit (expText e ++ r) := by
      cases e with
      | none => exact hr.noDigit
      | some q =>
        intro c s hs
        have h := (he q.1 q.2.1 q.2.2 rfl).1
        simp only [expText, List.cons_append, List.cons.injEq] at hs
        unfold digit
        omega
    have hsp := spanDigits_append (fun c hc => h2 c (List.mem_cons_of_mem _ hc)) hnd
    simp only [fracText, List.cons_append, List.append_assoc, scanRest]
    rw [if_pos hd0, hsp, tl true]
    simp

/-- The token of a number. -/
def tokOf : Val → Token
  | .unsigned n => .unsigned n
  | .integer z => .integer z
  | .float t => .float t
  | .str s => .str s
  | .bool true => .litTrue
  | .bool false => .litFalse
  | .null => .litNull
  | _ => .error

theorem scanInt_complete {i : Bytes} {d0 : Nat} (hi : ∀ c ∈ d0 :: i, digit c) (h0 : d0 = 48 → i = []) {f : Option Bytes} (hf : FracOk f)
    {e : Option (Nat × Bytes × Bytes)} (he : ExpOk e) {r : Bytes} (hr : Sep r) :
    scanInt d0 (i ++ (fracText f ++ expText e ++ r)) = some (d0 :: (i ++ (fracText f ++ expText e)), f.isSome || e.isSome, r) := by
  have sr := scanRest_complete hf he hr
  unfold scanInt
  by_cases h : d0 = 48
  · rw [if_pos h, h0 h, List.nil_append, sr, h]
    simp
  · have hnd : NoDigit (fracText f ++ expText e ++ r) := by
      intro c s hs
      cases f with
      | some ds =>
        simp only [fracText, List.cons_append, List.cons.injEq] at hs
        unfold digit; omega
      | none =>
        cases e with
        | none => exact hr.noDigit c s hs
        | some q =>
          have h := (he q.1 q.2.1 q.2.2 rfl).1
          simp only [fracText, expText, List.nil_append, List.cons_append, List.cons.injEq] at hs
          unfold digit
          omega
    rw [if_neg h, spanDigits_append (fun c hc => hi c (List.mem_cons_of_mem _ hc)) hnd, sr]
    simp

theorem flags {f : Option Bytes} {e : Option (Nat × Bytes × Bytes)} : (f.isSome || e.isSome) = false ↔ f = none ∧ e = none := by
  cases f <;> cases e <;> simp

theorem fracExp_nil {f : Option Bytes} {e : Option (Nat × Bytes × Bytes)} (h : f = none ∧ e = none) : fracText f ++ expText e = [] := by
  obtain ⟨rfl, rfl⟩ := h; rfl

theorem num_shape {n : NumLit} (hn : n.Ok) : ∃ d0 i, n.int = d0 :: i ∧ (∀ c ∈ d0 :: i, digit c) ∧ (d0 = 48 → i = []) := by
  obtain ⟨h1, h2, h3⟩ := hn.int
  obtain ⟨d0, i, e⟩ := List.exists_cons_of_ne_nil h1
  refine ⟨d0, i, e, e ▸ h2, fun h0 => ?_⟩
  have := h3 (by rw [e, h0]; rfl)
  rw [e] at this
  simpa using (List.cons.inj this).2

theorem scanToken_digit {c : Nat} (h : c = 45 ∨ (48 ≤ c ∧ c ≤ 57)) (s : Bytes) : scanToken (c :: s) = scanNumber c s := by
  rw [scanToken]
  rw [if_neg (by omega), if_neg (by omega), if_neg (by omega), if_neg (by omega), if_neg (by omega), if_neg (by omega), if_neg (by omega),
    if_neg (by omega), if_neg (by omega), if_neg (by omega), if_pos h]

theorem scanNumber_complete {n : NumLit} (hn : n.Ok) {r : Bytes} (hr : Sep r) : scanToken (n.text ++ r) = (tokOf n.val, r) := by
  obtain ⟨d0, i, hi, hd, h0⟩ := num_shape hn
  have hf : FracOk n.frac := hn.frac
  have he : ExpOk n.exp := hn.exp
  have si := scanInt_complete hd h0 hf he hr
  have hd0 : 48 ≤ d0 ∧ d0 ≤ 57 := hd d0 (List.mem_cons_self ..)
  cases hneg : n.neg with
  | true =>
    have ht : n.text = 45 :: d0 :: (i ++ (fracText n.frac ++ expText n.exp)) := by
      unfold NumLit.text; rw [hneg, hi]; simp
    rw [ht]
    simp only [List.cons_append, List.append_assoc]
    rw [scanToken_digit (.inl rfl)]
    simp only [List.append_assoc] at si
    simp only [scanNumber, if_true]
    rw [if_pos hd0, si]
    simp only [flags]
    by_cases hfl : n.frac = none ∧ n.exp = none
    · have e0 := fracExp_nil hfl
      unfold NumLit.val
      rw [if_pos hfl, hi, e0, List.append_nil, if_neg (c := n.neg = false ∧ _) (by rw [hneg]; simp)]
      unfold strto
      by_cases hb : decimal (d0 :: i) ≤ 2 ^ 63
      · rw [if_pos ⟨hfl, hb⟩, if_pos ⟨hneg, hb⟩]; rfl
      · rw [if_neg (fun h => hb h.2), if_neg (fun h => hb h.2), ht, e0, List.append_nil]; rfl
    · rw [if_neg (fun h => hfl h.1)]
      unfold NumLit.val
      rw [if_neg hfl, ht]; rfl
  | false =>
    have ht : n.text = d0 :: (i ++ (fracText n.frac ++ expText n.exp)) := by
      unfold NumLit.text; rw [hneg, hi]; simp
    rw [ht]
    simp only [List.cons_append, List.append_assoc]
    rw [scanToken_digit (.inr hd0)]
    simp only [List.append_assoc] at si
    simp only [scanNumber]
    rw [if_neg (by omega), si]
    simp only [flags]
    by_cases hfl : n.frac = none ∧ n.exp = none
    · have e0 := fracExp_nil hfl
      unfold NumLit.val
      rw [if_pos hfl, hi, e0, List.append_nil]
      unfold strto
      by_cases hb : decimal (d0 :: i) ≤ 2 ^ 64 - 1
      · rw [if_pos ⟨hfl, hb⟩, if_pos ⟨hneg, by omega⟩]; rfl
      · rw [if_neg (fun h => hb h.2), if_neg (fun h => hb (by omega)), if_neg (by rw [hneg]; simp), ht, e0, List.append_nil]; rfl
    · rw [if_neg (fun h => hfl h.1)]
      unfold NumLit.val
      rw [if_neg hfl, ht]; rfl

/-! ### Soundness -/

theorem scanExp_sound {s t r : Bytes} (h : scanExp s = some (t, r)) :
    ∃ sg d, t = sg ++ d ∧ s = t ++ r ∧ (sg = [] ∨ sg = [43] ∨ sg = [45]) ∧ d ≠ [] ∧ ∀ c ∈ d, digit c := by
  cases s with
  | nil => simp [scanExp] at h
  | cons c s =>
    simp only [scanExp] at h
    split at h
    · rename_i hc
      cases s with
      | nil => simp at h
      | cons d s =>
        simp only at h
        split at h
        · rename_i hd
          simp only [Option.some.injEq, Prod.mk.injEq] at h
          obtain ⟨rfl, rfl⟩ := h
          obtain ⟨h1, h2⟩ := spanDigits_sound s
          refine ⟨[c], d :: (spanDigits s).1, rfl, ?_, ?_, by simp, ?_⟩
          · simp only [List.cons_append]; rw [← h1]
          · rcases hc with rfl | rfl <;> simp
          · intro x hx
            rcases List.mem_cons.mp hx with rfl | hx
            · exact hd
            · exact h2 x hx
        · cases h
    · split at h
      · rename_i hd
        simp only [Option.some.injEq, Prod.mk.injEq] at h
        obtain ⟨rfl, rfl⟩ := h
        obtain ⟨h1, h2⟩ := spanDigits_sound s
        refine ⟨[], c :: (spanDigits s).1, rfl, ?_, .inl rfl, by simp, ?_⟩
        · simp only [List.cons_append]; rw [← h1]
        · intro x hx
          rcases List.mem_cons.mp hx with rfl | hx
          · exact hd
          · exact h2 x hx
      · cases h

theorem scanTail_sound {fl fl' : Bool} {s t r : Bytes} (h : scanTail fl s = some (t, fl', r)) :
    ∃ e, ExpOk e ∧ t = expText e ∧ s = t ++ r ∧ fl' = (fl || e.isSome) := by
  cases s with
  | nil =>
    simp only [scanTail, Option.some.injEq, Prod.mk.injEq] at h
    obtain ⟨rfl, rfl, rfl⟩ := h
    exact ⟨none, fun _ _ _ h => by simp at h, rfl, rfl, by simp⟩
  | cons c s =>
    simp only [scanTail] at h
    split at h
    · rename_i hc
      simp only [Option.map_eq_some_iff, Prod.mk.injEq] at h
      obtain ⟨⟨t1, r1⟩, h1, rfl, rfl, rfl⟩ := h
      obtain ⟨sg, d, rfl, h3, h4, h5, h6⟩ := scanExp_sound h1
      refine ⟨some (c, sg, d), ?_, rfl, by rw [h3]; rfl, by simp⟩
      intro l s' d' e
      simp only [Option.some.injEq, Prod.mk.injEq] at e
      obtain ⟨rfl, rfl, rfl⟩ := e
      exact ⟨hc, h4, h5, h6⟩
    · simp only [Option.some.injEq, Prod.mk.injEq] at h
      obtain ⟨rfl, rfl, rfl⟩ := h
      exact ⟨none, fun _ _ _ h => by simp at h, rfl, rfl, by simp⟩

theorem scanRest_sound {fl : Bool} {s t r : Bytes} (h : scanRest s = some (t, fl, r)) :
    ∃ f e, FracOk f ∧ ExpOk e ∧ t = fracText f ++ expText e ∧ s = t ++ r ∧ fl = (f.isSome || e.isSome) := by
  unfold scanRest at h
  split at h
  · rename_i _ s1
    cases s1 with
    | nil => simp at h
    | cons d s2 =>
      simp only at h
      split at h
      · rename_i hd
        simp only [Option.map_eq_some_iff, Prod.mk.injEq] at h
        obtain ⟨⟨t1, fl1, r1⟩, h1, rfl, rfl, rfl⟩ := h
        obtain ⟨e, he, rfl, h3, rfl⟩ := scanTail_sound h1
        obtain ⟨k1, k2⟩ := spanDigits_sound s2
        refine ⟨some (d :: (spanDigits s2).1), e, ?_, he, by simp [fracText], ?_, by simp⟩
        · intro ds e'
          simp only [Option.some.injEq] at e'
          subst e'
          refine ⟨by simp, fun x hx => ?_⟩
          rcases List.mem_cons.mp hx with rfl | hx
          · exact hd
          · exact k2 x hx
        · simp only [List.cons_append, List.append_assoc]
          rw [← h3, ← k1]
      · cases h
  · obtain ⟨e, he, rfl, h3, rfl⟩ := scanTail_sound h
    exact ⟨none, e, fun _ h => by simp at h, he, rfl, h3, by simp⟩

theorem scanInt_sound {d0 : Nat} (hd : digit d0) {fl : Bool} {s t r : Bytes} (h : scanInt d0 s = some (t, fl, r)) :
    ∃ i f e, FracOk f ∧ ExpOk e ∧ t = d0 :: (i ++ (fracText f ++ expText e)) ∧ d0 :: s = t ++ r ∧ fl = (f.isSome || e.isSome) ∧
      (∀ c ∈ d0 :: i, digit c) ∧ (d0 = 48 → i = []) := by
  unfold scanInt at h
  split at h
  · rename_i h48
    simp only [Option.map_eq_some_iff, Prod.mk.injEq] at h
    obtain ⟨⟨t1, fl1, r1⟩, h1, rfl, rfl, rfl⟩ := h
    obtain ⟨f, e, hf, he, rfl, h3, rfl⟩ := scanRest_sound h1
    exact ⟨[], f, e, hf, he, by rw [h48]; rfl, by rw [h3, h48]; rfl, rfl, by simpa using hd, fun _ => rfl⟩
  · rename_i h48
    simp only [Option.map_eq_some_iff, Prod.mk.injEq] at h
    obtain ⟨⟨t1, fl1, r1⟩, h1, rfl, rfl, rfl⟩ := h
    obtain ⟨f, e, hf, he, rfl, h3, rfl⟩ := scanRest_sound h1
    obtain ⟨k1, k2⟩ := spanDigits_sound s
    refine ⟨(spanDigits s).1, f, e, hf, he, rfl, ?_, rfl, ?_, fun h => absurd h h48⟩
    · simp only [List.cons_append, List.append_assoc] at h3 ⊢
      rw [← h3, ← k1]
    · intro x hx
      rcases List.mem_cons.mp hx with rfl | hx
      · exact hd
      · exact k2 x hx

/-- What a token that is not an error tells about the text. -/
theorem scanNumber_sound {c : Nat} (hc : c = 45 ∨ (48 ≤ c ∧ c ≤ 57)) {s r : Bytes} {t : Token} (h : scanNumber c s = (t, r)) (ht : t ≠ .error) :
    ∃ n : NumLit, n.Ok ∧ c :: s = n.text ++ r ∧ t = tokOf n.val := by
  have build : ∀ (neg : Bool) (d0 : Nat) (i : Bytes) (f : Option Bytes) (e : Option (Nat × Bytes × Bytes)), FracOk f → ExpOk e →
      (∀ c ∈ d0 :: i, digit c) → (d0 = 48 → i = []) → NumLit.Ok ⟨neg, d0 :: i, f, e⟩ := by
    intro neg d0 i f e hf he hd h0
    refine ⟨⟨by simp, hd, fun h => ?_⟩, hf, he⟩
    simp only [List.head?_cons, Option.some.injEq] at h
    rw [h0 h, h]
  unfold scanNumber at h
  split at h
  · rename_i h45
    subst h45
    cases s with
    | nil => simp only [Prod.mk.injEq] at h; exact absurd h.1.symm ht
    | cons d s =>
      simp only at h
      split at h
      · rename_i hd
        cases hs : scanInt d s with
        | none => rw [hs] at h; simp only [Prod.mk.injEq] at h; exact absurd h.1.symm ht
        | some q =>
          obtain ⟨t1, fl, r1⟩ := q
          rw [hs] at h
          obtain ⟨i, f, e, hf, he, rfl, h2, rfl, h4, h5⟩ := scanInt_sound hd hs
          have hv : NumLit.text ⟨true, d :: i, f, e⟩ = 45 :: d :: (i ++ (fracText f ++ expText e)) := by simp [NumLit.text]
          refine ⟨⟨true, d :: i, f, e⟩, build true d i f e hf he h4 h5, ?_, ?_⟩
          · have hr : r1 = r := by simp only at h; split at h <;> simpa using (Prod.mk.inj h).2
            rw [hv, ← hr, List.cons_append, ← h2]
          · simp only [flags] at h
            unfold NumLit.val
            by_cases hfl : f = none ∧ e = none
            · have e0 := fracExp_nil hfl
              unfold strto at h
              rw [e0, List.append_nil] at h
              rw [if_pos (by exact hfl), if_neg (by simp)]
              by_cases hb : decimal (d :: i) ≤ 2 ^ 63
              · rw [if_pos ⟨hfl, hb⟩] at h
                rw [if_pos ⟨rfl, hb⟩]
                exact (Prod.mk.inj h).1.symm
              · rw [if_neg (fun h => hb h.2)] at h
                rw [if_neg (fun h => hb h.2), hv, e0, List.append_nil]
                exact (Prod.mk.inj h).1.symm
            · rw [if_neg (fun h => hfl h.1)] at h
              rw [if_neg (by exact hfl), hv]
              exact (Prod.mk.inj h).1.symm
      · simp only [Prod.mk.injEq] at h; exact absurd h.1.symm ht
  · rename_i h45
    have hd : digit c := by rcases hc with h | h; exact absurd h h45; exact h
    cases hs : scanInt c s with
    | none => rw [hs] at h; simp only [Prod.mk.injEq] at h; exact absurd h.1.symm ht
    | some q =>
      obtain ⟨t1, fl, r1⟩ := q
      rw [hs] at h
      obtain ⟨i, f, e, hf, he, rfl, h2, rfl, h4, h5⟩ := scanInt_sound hd hs
      have hv : NumLit.text ⟨false, c :: i, f, e⟩ = c :: (i ++ (fracText f ++ expText e)) := by simp [NumLit.text]
      refine ⟨⟨false, c :: i, f, e⟩, build false c i f e hf he h4 h5, ?_, ?_⟩
      · have hr : r1 = r := by simp only at h; split at h <;> simpa using (Prod.mk.inj h).2
        rw [hv, ← hr, ← h2]
      · simp only [flags] at h
        unfold NumLit.val
        by_cases hfl : f = none ∧ e = none
        · have e0 := fracExp_nil hfl
          unfold strto at h
          rw [e0, List.append_nil] at h
          rw [if_pos (by exact hfl)]
          by_cases hb : decimal (c :: i) ≤ 2 ^ 64 - 1
          · rw [if_pos ⟨hfl, hb⟩] at h
            rw [if_pos ⟨rfl, (by omega : decimal (c :: i) < 2 ^ 64)⟩]
            exact (Prod.mk.inj h).1.symm
          · rw [if_neg (fun h => hb h.2)] at h
            rw [if_neg (fun h => hb (by have : decimal (c :: i) < 2 ^ 64 := h.2; omega)), if_neg (by simp), hv, e0, List.append_nil]
            exact (Prod.mk.inj h).1.symm
        · rw [if_neg (fun h => hfl h.1)] at h
          rw [if_neg (by exact hfl), hv]
          exact (Prod.mk.inj h).1.symm

/-- What a token tells about the text: a single byte, a literal, a string, a number, or the end. -/
inductive Shown : Token → Bytes → Bytes → Prop
  | struct {c : Nat} {t : Token} {r : Bytes} : (c, t) ∈ [(91, Token.beginArray), (93, .endArray), (123, .beginObject), (125, .endObject), (58, .nameSep), (44, .valueSep)] →
      Shown t (c :: r) r
  | true {r : Bytes} : Shown .litTrue ([116, 114, 117, 101] ++ r) r
  | false {r : Bytes} : Shown .litFalse ([102, 97, 108, 115, 101] ++ r) r
  | null {r : Bytes} : Shown .litNull ([110, 117, 108, 108] ++ r) r
  | str {t r : Bytes} {cs : List Nat} : StrText t cs → Shown (.str (cs.flatMap utf8)) (34 :: (t ++ 34 :: r)) r
  | num {n : NumLit} {r : Bytes} : n.Ok → Shown (tokOf n.val) (n.text ++ r) r
  | eof : Shown .eoi [] []
  | nul {r : Bytes} : Shown .eoi (0 :: r) r
  | error {s r : Bytes} : Shown .error s r

theorem scanLiteral_sound {l s r : Bytes} {t t' : Token} (h : scanLiteral l t s = (t', r)) : t' = .error ∨ (t' = t ∧ s = l ++ r) := by
  unfold scanLiteral at h
  split at h
  · rename_i e
    simp only [Prod.mk.injEq] at h
    obtain ⟨rfl, rfl⟩ := h
    refine .inr ⟨rfl, ?_⟩
    conv_lhs => rw [← List.take_append_drop l.length s, e]
  · simp only [Prod.mk.injEq] at h
    exact .inl h.1.symm

theorem scanToken_sound (s : Bytes) : Shown (scanToken s).1 s (scanToken s).2 := by
  cases s with
  | nil => exact .eof
  | cons c s =>
    rw [scanToken]
    by_cases h : c = 91
    · rw [if_pos h]; subst h; exact .struct (.head _)
    rw [if_neg h]; clear h
    by_cases h : c = 93
    · rw [if_pos h]; subst h; exact .struct (.tail _ (.head _))
    rw [if_neg h]; clear h
    by_cases h : c = 123
    · rw [if_pos h]; subst h; exact .struct (.tail _ (.tail _ (.head _)))
    rw [if_neg h]; clear h
    by_cases h : c = 125
    · rw [if_pos h]; subst h; exact .struct (.tail _ (.tail _ (.tail _ (.head _))))
    rw [if_neg h]; clear h
    by_cases h : c = 58
    · rw [if_pos h]; subst h; exact .struct (.tail _ (.tail _ (.tail _ (.tail _ (.head _)))))
    rw [if_neg h]; clear h
    by_cases h : c = 44
    · rw [if_pos h]; subst h; exact .struct (.tail _ (.tail _ (.tail _ (.tail _ (.tail _ (.head _))))))
    rw [if_neg h]; clear h
    by_cases h : c = 116
    · rw [if_pos h]; subst h
      rcases scanLiteral_sound (Prod.mk.eta (p := scanLiteral [114, 117, 101] Token.litTrue s)).symm with h | ⟨h1, h2⟩
      · rw [h]; exact .error
      · rw [h1]; conv => arg 2; rw [h2]
        exact .true
    rw [if_neg h]; clear h
    by_cases h : c = 102
    · rw [if_pos h]; subst h
      rcases scanLiteral_sound (Prod.mk.eta (p := scanLiteral [97, 108, 115, 101] Token.litFalse s)).symm with h | ⟨h1, h2⟩
      · rw [h]; exact .error
      · rw [h1]; conv => arg 2; rw [h2]
        exact .false
    rw [if_neg h]; clear h
    by_cases h : c = 110
    · rw [if_pos h]; subst h
      rcases scanLiteral_sound (Prod.mk.eta (p := scanLiteral [117, 108, 108] Token.litNull s)).symm with h | ⟨h1, h2⟩
      · rw [h]; exact .error
      · rw [h1]; conv => arg 2; rw [h2]
        exact .null
    rw [if_neg h]; clear h
    by_cases h : c = 34
    · rw [if_pos h]; subst h
      cases hs : scanString s.length s with
      | none => exact .error
      | some q =>
        obtain ⟨o, r⟩ := q
        obtain ⟨t, cs, h1, h2, h3⟩ := scanString_sound _ hs
        rw [h2, h3]
        exact .str h1
    rw [if_neg h]; clear h
    by_cases h : c = 45 ∨ (48 ≤ c ∧ c ≤ 57)
    · rw [if_pos h]
      by_cases ht : (scanNumber c s).1 = .error
      · rw [ht]; exact .error
      · obtain ⟨n, h1, h2, h3⟩ := scanNumber_sound h (Prod.mk.eta (p := scanNumber c s)).symm ht
        rw [h3, h2]
        exact .num h1
    rw [if_neg h]; clear h
    by_cases h : c = 0
    · rw [if_pos h]; subst h; exact .nul
    · rw [if_neg h]; exact .error

end Verif.Json
