import Verif.Text.Props
/-
C67: parsing the tokens of printed operations.
-/
namespace Verif.Text

/-! ### Monad and token lemmas -/

theorem bind_run {α β : Type} (x : P α) (f : α → P β) (ts : List Tok) :
    (x >>= f) ts = match x ts with | some (a, r) => f a r | none => none := rfl
theorem pure_run {α : Type} (a : α) (ts : List Tok) : (pure a : P α) ts = some (a, ts) := rfl

/-- One step of a parser that succeeds. -/
theorem step {α β : Type} {x : P α} {f : α → P β} {ts r : List Tok} {a : α} (h : x ts = some (a, r)) : (x >>= f) ts = f a r := by rw [bind_run, h]

theorem expect_ok {c : Char} {r : List Tok} : expect c (.p c :: r) = some ((), r) := by simp [expect]
theorem opt_yes {c : Char} {r : List Tok} : opt c (.p c :: r) = some (true, r) := by simp [opt]

/-- The next token is not the character `c`. -/
def notNext (c : Char) (ts : List Tok) : Prop := ∀ d, ts.head? = some (.p d) → d ≠ c

theorem opt_no {c : Char} {ts : List Tok} (h : notNext c ts) : opt c ts = some (false, ts) := by
  cases ts with
  | nil => rfl
  | cons t r =>
    cases t with
    | p d => have := h d rfl; simp [opt, this]
    | _ => rfl

@[simp] theorem toks_nil : toks [] = [] := rfl
@[simp] theorem toks_tok (t : Tok) (r : List Piece) : toks (.tok t :: r) = t :: toks r := rfl
@[simp] theorem toks_ws (w : List Char) (r : List Piece) : toks (.ws w :: r) = toks r := rfl
theorem toks_append : ∀ a b : List Piece, toks (a ++ b) = toks a ++ toks b
  | [], _ => rfl
  | .tok t :: a, b => by simp [toks_append a b]
  | .ws w :: a, b => by simp [toks_append a b]

theorem digits_val (n : Nat) : Nat.ofDigitChars 10 (Nat.toDigits 10 n) 0 = n := Nat.ofDigitChars_toDigits (by omega) (by omega)

theorem pU32_ok {n : Nat} (h : n < 2 ^ 32) {r : List Tok} : pU32 (.num (Nat.toDigits 10 n) :: r) = some (n, r) := by
  simp only [pU32, digits_val, h, if_true]

theorem pBool_ok (b : Bool) {r : List Tok} : pBool (.id (boolName b) :: r) = some (b, r) := by
  cases b <;> rfl

theorem mkIntTy_ok (s : Sign) {w : Nat} (h : w < 2 ^ 24) : mkIntTy s (Nat.toDigits 10 w) = some (.int s w) := by
  obtain ⟨h1, h2⟩ := digits_ok w
  unfold mkIntTy
  rw [if_pos ⟨h1, by simpa using h2, by rw [digits_val]; exact h⟩, digits_val]

theorem intTy_ok (s : Sign) {w : Nat} (h : w < 2 ^ 24) : intTy (s.name ++ Nat.toDigits 10 w) = some (.int s w) := by
  cases s
  · exact mkIntTy_ok .signless h
  · exact mkIntTy_ok .signed h
  · exact mkIntTy_ok .unsigned h

theorem wrapOf_ok (w : Wrap) : wrapOf w.name = some w := by cases w <;> rfl

theorem wrap_ne (w : Wrap) : w.name ≠ "dfcir.fixed".toList ∧ w.name ≠ "dfcir.float".toList ∧ w.name ≠ "dfcir.rawbits".toList := by
  cases w <;> decide

/-! ### Types -/

theorem pTypeF_ok : ∀ (t : Ty) (n : Nat) (r : List Tok), TyOK t → (toks (tyP t)).length ≤ n → pTypeF n (toks (tyP t) ++ r) = some (t, r)
  | .fixed s i f, n, r, h, hn => by
    obtain ⟨m, rfl⟩ : ∃ m, n = m + 1 := ⟨n - 1, by simp [tyP, pc, numP, kw, sp] at hn; omega⟩
    show (do expect '<'; let b ← pBool; expect ','; let i ← pU32; expect ','; let f ← pU32; expect '>'; return Ty.fixed b i f : P Ty)
      (.p '<' :: .id (boolName s) :: .p ',' :: .num (Nat.toDigits 10 i) :: .p ',' :: .num (Nat.toDigits 10 f) :: .p '>' :: r) = _
    rw [step expect_ok, step (pBool_ok s), step expect_ok, step (pU32_ok h.1), step expect_ok, step (pU32_ok h.2), step expect_ok]
    rfl
  | .float e f, n, r, h, hn => by
    obtain ⟨m, rfl⟩ : ∃ m, n = m + 1 := ⟨n - 1, by simp [tyP, pc, numP, kw, sp] at hn; omega⟩
    show (do expect '<'; let e ← pU32; expect ','; let f ← pU32; expect '>'; return Ty.float e f : P Ty)
      (.p '<' :: .num (Nat.toDigits 10 e) :: .p ',' :: .num (Nat.toDigits 10 f) :: .p '>' :: r) = _
    rw [step expect_ok, step (pU32_ok h.1), step expect_ok, step (pU32_ok h.2), step expect_ok]
    rfl
  | .rawbits b, n, r, h, hn => by
    obtain ⟨m, rfl⟩ : ∃ m, n = m + 1 := ⟨n - 1, by simp [tyP, pc, numP, kw, sp] at hn; omega⟩
    show (do expect '<'; let b ← pU32; expect '>'; return Ty.rawbits b : P Ty) (.p '<' :: .num (Nat.toDigits 10 b) :: .p '>' :: r) = _
    rw [step expect_ok, step (pU32_ok h), step expect_ok]
    rfl
  | .wrap w t, n, r, h, hn => by
    simp only [tyP, toks_append, List.length_append, List.cons_append, List.nil_append, pc, toks_tok, toks_nil, List.length_cons, List.length_nil] at hn
    obtain ⟨m, rfl⟩ : ∃ m, n = m + 1 := ⟨n - 1, by omega⟩
    have ih := pTypeF_ok t m (.p '>' :: r) h (by omega)
    simp only [tyP, toks_append, List.cons_append, List.nil_append, pc, toks_tok, toks_nil, List.append_assoc]
    obtain ⟨n1, n2, n3⟩ := wrap_ne w
    rw [pTypeF]
    simp only [n1, n2, n3, if_false, wrapOf_ok]
    rw [step expect_ok, step ih, step expect_ok]
    rfl
  | .int s w, n, r, h, hn => by
    obtain ⟨m, rfl⟩ : ∃ m, n = m + 1 := ⟨n - 1, by simp [tyP, kw] at hn; omega⟩
    show (intTy (s.name ++ Nat.toDigits 10 w)).map (·, r) = _
    rw [intTy_ok s h]
    rfl

theorem pType_ok {t : Ty} (h : TyOK t) {r : List Tok} : pType (toks (tyP t) ++ r) = some (t, r) :=
  pTypeF_ok t _ r h (by rw [List.length_append]; omega)

theorem tyT_head (t : Ty) : (∃ s l, toks (tyP t) = .ty s :: l) ∨ ∃ s l, toks (tyP t) = .id s :: l := by
  cases t
  · exact .inl ⟨_, _, rfl⟩
  · exact .inl ⟨_, _, rfl⟩
  · exact .inl ⟨_, _, rfl⟩
  · exact .inl ⟨_, _, rfl⟩
  · exact .inr ⟨_, _, rfl⟩

theorem pWrapTy_full {w : Wrap} {t : Ty} (h : TyOK t) {r : List Tok} : pWrapTy w (toks (tyP (.wrap w t)) ++ r) = some (.wrap w t, r) := by
  have := pType_ok (t := .wrap w t) h (r := r)
  have e : toks (tyP (.wrap w t)) ++ r = .ty w.name :: ((.p '<' :: (toks (tyP t) ++ [.p '>'])) ++ r) := by
    simp [tyP, toks_append, pc]
  rw [e] at this ⊢
  show (do
      let t ← pType
      match t with
      | .wrap w' x => if w' = w then pure (Ty.wrap w x) else fail
      | _ => fail : P Ty) _ = _
  rw [step this]
  simp [pure_run]

theorem pWrapTy_short {w : Wrap} {t : Ty} (h : TyOK t) {r : List Tok} :
    pWrapTy w (.p '<' :: (toks (tyP t) ++ .p '>' :: r)) = some (.wrap w t, r) := by
  show (do expect '<'; let t ← pType; expect '>'; return Ty.wrap w t : P Ty) _ = _
  rw [step expect_ok, step (pType_ok h), step expect_ok]
  rfl

/-! ### Attributes -/

theorem readInt_ok {a : IntAttr} (h : AttrOK a) : readInt a.sign a.width (decide (a.number < 0)) a.number.natAbs = some a.bits := by
  obtain ⟨h1, h2⟩ := h
  obtain ⟨s, w, b⟩ := a
  dsimp only at h1 h2
  have hc : ((2 ^ w : Nat) : Int) = 2 ^ w := by push_cast; rfl
  unfold IntAttr.number IntAttr.sext
  dsimp only
  by_cases hs : s = .unsigned
  · subst hs
    simp only [if_true]
    unfold readInt
    have : ¬ ((b : Int) < 0) := by omega
    simp [this, h2]
  · simp only [hs, if_false]
    by_cases hb : 2 * b < 2 ^ w
    · simp only [hb, if_true]
      unfold readInt
      have h3 : ¬ ((b : Int) < 0) := by omega
      have h4 : ¬(s = .signed ∧ 0 < w ∧ 2 ^ (w - 1) ≤ b) := by
        rintro ⟨-, h5, h6⟩
        have : 2 ^ w = 2 * 2 ^ (w - 1) := by rw [← Nat.pow_succ']; congr 1; omega
        omega
      simp [h3, h2, h4]
    · simp only [hb, if_false]
      have hw : w ≠ 0 := by
        rintro rfl
        simp at h2 hb
        omega
      have e2 : 2 ^ w = 2 * 2 ^ (w - 1) := by rw [← Nat.pow_succ']; congr 1; omega
      have hn : ((b : Int) - 2 ^ w).natAbs = 2 ^ w - b := by
        rw [← hc]; omega
      have hneg : (b : Int) - 2 ^ w < 0 := by rw [← hc]; omega
      rw [hn]
      unfold readInt
      have h5 : ¬ (2 ^ w ≤ 2 ^ w - b) := by omega
      have h6 : 2 ^ w - (2 ^ w - b) = b := by omega
      have h7 : ¬(s = .unsigned ∨ w = 0 ∨ b < 2 ^ (w - 1)) := by
        rintro (h | h | h)
        · exact hs h
        · exact hw h
        · omega
      simp only [h5, if_false, hneg, decide_true, if_true, h6, Nat.mod_eq_of_lt h2, h7]

theorem pIntTail_ok {a : IntAttr} (h : AttrOK a) {neg : Bool} (hn : neg = decide (a.number < 0)) {r : List Tok} :
    pIntTail neg (Nat.toDigits 10 a.number.natAbs) (.p ':' :: (toks (tyP (.int a.sign a.width)) ++ r)) = some (a, r) := by
  unfold pIntTail
  rw [step (opt_yes)]
  simp only [if_true]
  rw [step (pType_ok (t := .int a.sign a.width) h.1)]
  simp only [digits_val, hn, readInt_ok h]
  rfl

theorem pIntAttr_ok {a : IntAttr} (h : AttrOK a) {r : List Tok} : pIntAttr (toks (attrP a) ++ r) = some (a, r) := by
  unfold attrP
  split
  · next h1 =>
    obtain ⟨s, w, b⟩ := a
    obtain ⟨rfl, rfl⟩ := h1
    have h2 : b < 2 := h.2
    have : b = 0 ∨ b = 1 := by omega
    rcases this with rfl | rfl <;> rfl
  · next h1 =>
    unfold intP
    split
    · next hn =>
      have := pIntTail_ok h (neg := true) (by simp [hn]) (r := r)
      simpa [toks_append, pc, sp, numP, pIntAttr] using this
    · next hn =>
      have := pIntTail_ok h (neg := false) (by simp [hn]) (r := r)
      simpa [toks_append, pc, sp, numP, pIntAttr] using this

/-- Printed attributes do not start with the keyword `array`. -/
theorem pAttrV_int {a : IntAttr} (h : AttrOK a) {r : List Tok} : pAttrV (toks (attrP a) ++ r) = some (.int a, r) := by
  have h1 := pIntAttr_ok h (r := r)
  have key : ∀ ts : List Tok, (∀ s l, ts = .id s :: l → s ≠ "array".toList) → pAttrV ts = (do let a ← pIntAttr; return AttrV.int a : P AttrV) ts := by
    intro ts hts
    match ts with
    | [] => rfl
    | .id s :: l => simp only [pAttrV, if_neg (hts s l rfl)]
    | .ty s :: l => rfl
    | .val s :: l => rfl
    | .num s :: l => rfl
    | .str s :: l => rfl
    | .p c :: l => rfl
  rw [key, step h1]
  · rfl
  · intro s l he
    unfold attrP at he
    split at he
    · simp only [kw, toks_tok, toks_nil, List.cons_append, List.cons.injEq, Tok.id.injEq] at he
      rw [← he.1]
      cases decide (a.bits ≠ 0) <;> decide
    · unfold intP at he
      split at he <;> simp [toks_append, pc, numP] at he

/-! ### Values -/

/-- The names of the values in scope are their numbers. -/
def envOf (tys : List Ty) : Env := (List.range tys.length).map fun i => (Nat.toDigits 10 i, tyOf tys i)

theorem toDigits_inj {m n : Nat} (h : Nat.toDigits 10 m = Nat.toDigits 10 n) : m = n := by
  rw [← digits_val m, h, digits_val]

theorem envOf_append (tys : List Ty) (t : Ty) : envOf (tys ++ [t]) = envOf tys ++ [(Nat.toDigits 10 tys.length, t)] := by
  unfold envOf
  rw [List.length_append, List.length_singleton, List.range_succ, List.map_append]
  congr 1
  · refine List.map_congr_left fun i hi => ?_
    have : i < tys.length := List.mem_range.mp hi
    simp [tyOf, List.getElem?_append_left this]
  · simp [tyOf]

theorem lookup_map (f : Nat → List Char × Ty) (hf : ∀ i j, (f i).1 = (f j).1 → i = j) (v : Nat) : ∀ (n k : Nat),
    lookup k ((List.range' k n).map f) (f v).1 = if k ≤ v ∧ v < k + n then some (v, (f v).2) else none
  | 0, k => by
    have : ¬(k ≤ v ∧ v < k + 0) := by omega
    simp [lookup]
  | n + 1, k => by
    rw [List.range'_succ, List.map_cons]
    rw [show f k = ((f k).1, (f k).2) from rfl, lookup]
    by_cases h : k = v
    · subst h
      simp
    · rw [if_neg (fun e => h (hf _ _ e)), lookup_map f hf v n (k + 1)]
      have : (k + 1 ≤ v ∧ v < k + 1 + n) ↔ (k ≤ v ∧ v < k + (n + 1)) := by omega
      simp only [this]

theorem lookup_ok {tys : List Ty} (v : Nat) :
    lookup 0 (envOf tys) (Nat.toDigits 10 v) = if v < tys.length then some (v, tyOf tys v) else none := by
  have := lookup_map (fun i => (Nat.toDigits 10 i, tyOf tys i)) (fun i j h => toDigits_inj h) v tys.length 0
  rw [← List.range_eq_range'] at this
  simpa [envOf] using this

theorem resolve_ok {tys : List Ty} {v : Nat} (h : v < tys.length) {ts : List Tok} :
    resolve (envOf tys) (Nat.toDigits 10 v) (tyOf tys v) ts = some (v, ts) := by
  unfold resolve
  rw [lookup_ok, if_pos h]
  simp [pure_run]

theorem tyOf_ok {tys : List Ty} (hb : ∀ t ∈ tys, TyOK t) {v : Nat} (h : v < tys.length) : TyOK (tyOf tys v) := by
  unfold tyOf
  rw [List.getD_eq_getElem?_getD, List.getElem?_eq_getElem h]
  exact hb _ (List.getElem_mem h)

theorem pOperand_ok {s : List Char} {r : List Tok} : pOperand (.val s :: r) = some (s, r) := rfl
theorem pStr_ok {s : List Char} {r : List Tok} : pStr (.str s :: r) = some (s, r) := rfl

section
variable {tys : List Ty} (hb : ∀ t ∈ tys, TyOK t)
include hb

theorem pArg_ok {v : Nat} (h : v < tys.length) {r : List Tok} : pArg (envOf tys) (toks (argP tys v) ++ r) = some (v, r) := by
  have e : toks (argP tys v) ++ r = .val (Nat.toDigits 10 v) :: .p ':' :: (toks (tyP (tyOf tys v)) ++ r) := by
    simp [argP, valP, sp, pc]
  rw [e]
  unfold pArg
  rw [step pOperand_ok, step expect_ok, step (pType_ok (tyOf_ok hb h)), resolve_ok h]

theorem pOptArg_ok {v : Nat} (h : v < tys.length) {r : List Tok} : pOptArg (envOf tys) (toks (argP tys v) ++ r) = some (some v, r) := by
  have h1 := pArg_ok hb h (r := r)
  have e : toks (argP tys v) ++ r = .val (Nat.toDigits 10 v) :: .p ':' :: (toks (tyP (tyOf tys v)) ++ r) := by
    simp [argP, valP, sp, pc]
  rw [e] at h1 ⊢
  show (do let v ← pArg (envOf tys); return some v : P (Option Nat)) _ = _
  rw [step h1]
  rfl

theorem pSrc_ok {o : Option Nat} (h : ∀ v ∈ o, v < tys.length) {r : List Tok} (hr : notNext '<' r) :
    pSrc (envOf tys) (toks (srcP tys o) ++ r) = some (o, r) := by
  cases o with
  | none =>
    show pSrc _ r = _
    unfold pSrc
    rw [step (opt_no hr)]
    rfl
  | some v =>
    have e : toks (srcP tys (some v)) ++ r = .p '<' :: .p '=' :: (toks (argP tys v) ++ r) := by simp [srcP, sp, pc]
    rw [e]
    unfold pSrc
    rw [step opt_yes]
    simp only [if_true]
    rw [step expect_ok, pOptArg_ok hb (h v rfl)]

theorem pCtrl_ok {o : Option Nat} (h : ∀ v ∈ o, v < tys.length) {r : List Tok} (hr : notNext ',' r) :
    pCtrl (envOf tys) (toks (ctrlP tys o) ++ r) = some (o, r) := by
  cases o with
  | none =>
    show pCtrl _ r = _
    unfold pCtrl
    rw [step (opt_no hr)]
    rfl
  | some v =>
    have e : toks (ctrlP tys (some v)) ++ r = .p ',' :: (toks (argP tys v) ++ r) := by simp [ctrlP, sp, pc]
    rw [e]
    unfold pCtrl
    rw [step opt_yes]
    simp only [if_true]
    rw [pOptArg_ok hb (h v rfl)]

end

theorem pHead_ok {ty : Ty} (h : TyOK ty) {nm : List Char} {r : List Tok} : pHead (toks (headP ty nm) ++ r) = some ((ty, nm), r) := by
  have e : toks (headP ty nm) ++ r = .p '<' :: (toks (tyP ty) ++ .p '>' :: .p '(' :: .str nm :: r) := by
    simp [headP, sp, pc, strP, toks_append]
  rw [e]
  unfold pHead
  rw [step expect_ok, step (pType_ok h), step expect_ok, step expect_ok, step pStr_ok]
  rfl

/-! ### Dictionaries and latencies -/

theorem pDict_none {r : List Tok} (h : notNext '{' r) : pDict r = some ([], r) := by
  unfold pDict
  rw [step (opt_no h)]
  rfl

theorem pNoDict_ok {r : List Tok} (h : notNext '{' r) : pNoDict r = some ((), r) := by
  unfold pNoDict
  rw [step (pDict_none h)]
  rfl

theorem sepBy1_one {α : Type} {p : P α} {ts r : List Tok} {a : α} (hp : p ts = some (a, r)) (hne : ts ≠ []) (hr : notNext ',' r) :
    sepBy1 p ts = some ([a], r) := by
  unfold sepBy1
  cases ts with
  | nil => exact absurd rfl hne
  | cons t l =>
    rw [List.length_cons, sepBy1F, step hp, step (opt_no hr)]
    rfl

theorem notNext_p {c d : Char} {r : List Tok} (h : d ≠ c) : notNext c (.p d :: r) := by
  intro e he
  simp only [List.head?_cons, Option.some.injEq, Tok.p.injEq] at he
  exact he ▸ h

theorem pEntry_int {k : List Char} {a : IntAttr} (h : AttrOK a) {r : List Tok} :
    pEntry (.id k :: .p '=' :: (toks (attrP a) ++ r)) = some ((k, .int a), r) := by
  unfold pEntry
  rw [step (show pKey (.id k :: .p '=' :: (toks (attrP a) ++ r)) = some (k, _) from rfl), step expect_ok, step (pAttrV_int h)]
  rfl

theorem pLatDict_ok {pick : IntAttr → IntAttr → IntAttr} (hp : ∀ a, pick a a = a) {l : IntAttr} (h : AttrOK l) {r : List Tok} :
    pLatDict pick l (toks (latDictP l) ++ r) = some (l, r) := by
  have e : toks (latDictP l) ++ r = .p '{' :: .id "latency".toList :: .p '=' :: (toks (attrP l) ++ .p '}' :: r) := by
    simp [latDictP, sp, pc, kw, toks_append]
  rw [e]
  have hd : pDict (.p '{' :: .id "latency".toList :: .p '=' :: (toks (attrP l) ++ .p '}' :: r)) = some ([("latency".toList, .int l)], r) := by
    unfold pDict
    rw [step opt_yes]
    simp only [if_true]
    rw [step (opt_no (by intro d hd; simp at hd))]
    simp only [Bool.false_eq_true, if_false]
    rw [step (sepBy1_one (pEntry_int h) (by simp) (notNext_p (by decide))), step expect_ok]
    simp [pure_run]
  unfold pLatDict
  rw [step hd]
  simp [hp, pure_run]

theorem attrT_head (a : IntAttr) (r : List Tok) (c : Char) (hc : c ≠ '-') : notNext c (toks (attrP a) ++ r) := by
  intro d hd
  unfold attrP at hd
  split at hd
  · simp [kw] at hd
  · unfold intP at hd
    split at hd
    · simp [toks_append, pc] at hd
      exact hd ▸ fun h => hc h.symm
    · simp [toks_append, numP] at hd

theorem LatOK.attr {l : IntAttr} (h : LatOK l) : AttrOK l := by
  obtain ⟨h1, h2, h3⟩ := h
  exact ⟨by rw [h2]; decide, by rw [h2]; exact h3⟩

theorem pBracket_ok {l : IntAttr} (h : LatOK l) {r : List Tok} : pBracket (toks (bracketP l) ++ r) = some (l, r) := by
  unfold bracketP
  split
  · next hb =>
    have he : l = ⟨.signless, 32, 2 ^ 32 - 1⟩ := by
      obtain ⟨s, w, b⟩ := l
      obtain ⟨h1, h2, h3⟩ := h
      dsimp only at h1 h2 h3
      subst h1 h2
      unfold IntAttr.sext at hb
      dsimp only at hb
      have : b = 2 ^ 32 - 1 := by
        split at hb <;> omega
      rw [this]
    simp only [toks_append, pc, sp, toks_tok, toks_ws, toks_nil, List.cons_append, List.nil_append]
    unfold pBracket
    rw [step expect_ok, step opt_yes]
    simp only [if_true]
    rw [step expect_ok, he]
    rfl
  · have e : toks ([pc '['] ++ attrP l ++ [pc ']', sp]) ++ r = .p '[' :: (toks (attrP l) ++ .p ']' :: r) := by
      simp [sp, pc, toks_append]
    rw [e]
    unfold pBracket
    rw [step expect_ok, step (opt_no (attrT_head l _ '?' (by decide)))]
    simp only [Bool.false_eq_true, if_false]
    rw [step (pIntAttr_ok h.attr), step expect_ok]
    rfl

/-! ### Operations -/

theorem notNext_val {c : Char} {s : List Char} {r : List Tok} : notNext c (.val s :: r) := by intro d hd; simp at hd

/-- Printed types are followed by nothing a type parser would swallow; what follows an operation in a block: a value, a name or the closing brace. -/
def Stop (r : List Tok) : Prop := ∀ d, r.head? = some (.p d) → d = '}'

theorem Stop.no {r : List Tok} (h : Stop r) {c : Char} (hc : c ≠ '}') : notNext c r := fun d hd => (h d hd) ▸ fun e => hc e.symm

section
variable {tys : List Ty} (hb : ∀ t ∈ tys, TyOK t)
include hb

theorem pMuxVar_ok {res : Ty} {v : Nat} (h : v < tys.length) {r : List Tok} (hr : notNext ':' r) :
    pMuxVar (.val (Nat.toDigits 10 v) :: (toks (if tyOf tys v = res then [] else [pc ':', sp] ++ tyP (tyOf tys v)) ++ r)) =
      some ((Nat.toDigits 10 v, if tyOf tys v = res then none else some (tyOf tys v)), r) := by
  unfold pMuxVar
  rw [step pOperand_ok]
  split
  · show (opt ':' >>= _) r = _
    rw [step (opt_no hr)]
    rfl
  · simp only [pc, sp, List.cons_append, List.nil_append, toks_tok, toks_ws]
    rw [step opt_yes]
    simp only [if_true]
    rw [step (pType_ok (tyOf_ok hb h))]
    rfl

/-- The names and types written for multiplexed values. -/
def muxNames (tys : List Ty) (res : Ty) (vs : List Nat) : List (List Char × Option Ty) :=
  vs.map fun v => (Nat.toDigits 10 v, if tyOf tys v = res then none else some (tyOf tys v))

theorem pMuxVars_ok {res : Ty} : ∀ {vs : List Nat} {v : Nat} {r : List Tok} {n : Nat}, v < tys.length → (∀ x ∈ vs, x < tys.length) →
    notNext ':' r → notNext ',' r → vs.length < n →
    sepBy1F pMuxVar n (.val (Nat.toDigits 10 v) :: (toks (if tyOf tys v = res then [] else [pc ':', sp] ++ tyP (tyOf tys v)) ++
      (toks (vs.flatMap (muxVarP tys res)) ++ r))) = some (muxNames tys res (v :: vs), r)
  | [], v, r, n, hv, _, h1, h2, hn => by
    obtain ⟨m, rfl⟩ : ∃ m, n = m + 1 := ⟨n - 1, by omega⟩
    rw [sepBy1F, step (pMuxVar_ok hb hv (by simpa using h1))]
    simp only [List.flatMap_nil, toks_nil, List.nil_append]
    rw [step (opt_no h2)]
    rfl
  | x :: vs, v, r, n, hv, hx, h1, h2, hn => by
    obtain ⟨m, rfl⟩ : ∃ m, n = m + 1 := ⟨n - 1, by omega⟩
    have e : toks ((x :: vs).flatMap (muxVarP tys res)) ++ r = .p ',' :: .val (Nat.toDigits 10 x) ::
        (toks (if tyOf tys x = res then [] else [pc ':', sp] ++ tyP (tyOf tys x)) ++ (toks (vs.flatMap (muxVarP tys res)) ++ r)) := by
      rw [List.flatMap_cons, show muxVarP tys res x = [pc ',', sp, valP x] ++ (if tyOf tys x = res then [] else [pc ':', sp] ++ tyP (tyOf tys x)) from rfl]
      simp only [toks_append, pc, sp, valP, toks_tok, toks_ws, toks_nil, List.cons_append, List.nil_append, List.append_assoc]
    rw [e, sepBy1F, step (pMuxVar_ok hb hv (notNext_p (by decide))), step opt_yes]
    simp only [if_true]
    rw [step (pMuxVars_ok (hx x (by simp)) (fun y hy => hx y (by simp [hy])) h1 h2 (by simp at hn; omega))]
    rfl

theorem resolveAll_ok {res : Ty} : ∀ {vs : List Nat} {r : List Tok}, (∀ x ∈ vs, x < tys.length) →
    resolveAll (envOf tys) res (muxNames tys res vs) r = some (vs, r)
  | [], _, _ => rfl
  | v :: vs, r, h => by
    have ih := resolveAll_ok (res := res) (vs := vs) (r := r) fun x hx => h x (by simp [hx])
    have hv := resolve_ok (h v (by simp)) (ts := r)
    show resolveAll (envOf tys) res ((Nat.toDigits 10 v, if tyOf tys v = res then none else some (tyOf tys v)) :: muxNames tys res vs) r = _
    rw [resolveAll]
    have e : (if tyOf tys v = res then none else some (tyOf tys v)).getD res = tyOf tys v := by
      split
      · next h => exact h.symm
      · rfl
    rw [e, step hv, step ih]
    rfl

variable {pick : IntAttr → IntAttr → IntAttr} (hp : ∀ a, pick a a = a) {r : List Tok} (hr : Stop r)

omit hb in
theorem tyOf_some {x : Nat} {t : Ty} (h : tys[x]? = some t) : x < tys.length ∧ tyOf tys x = t := by
  obtain ⟨h1, h2⟩ := List.getElem?_eq_some_iff.mp h
  refine ⟨h1, ?_⟩
  unfold tyOf
  rw [List.getD_eq_getElem?_getD, h]
  rfl

local macro "toktok" : tactic => `(tactic| (
  simp only [argsP, toks_append, pc, sp, valP, kw, numP, toks_tok, toks_ws, toks_nil, List.cons_append, List.nil_append, List.append_assoc, List.append_nil]))

/-- Every operator name is recognised. -/
theorem pOp_ok {s : Stmt} (h : StmtOK tys s) (hp : ∀ a, pick a a = a) (hr : Stop r) (hbrace : notNext '{' r) :
    pOp pick (envOf tys) s.name (toks (argsP tys s) ++ r) = some (s, r) := by
  cases s with
  | scalarInput ty nm =>
    show pScalarInput _ = _
    toktok
    unfold pScalarInput
    rw [step (pHead_ok h.1), step expect_ok, step (pNoDict_ok hbrace)]
    rfl
  | scalarOutput ty nm src =>
    show pScalarOutput _ _ = _
    toktok
    unfold pScalarOutput
    rw [step (pHead_ok h.1), step expect_ok, step (pSrc_ok hb h.2.2 (hr.no (by decide))), step (pNoDict_ok hbrace)]
    rfl
  | input ty nm ctrl =>
    show pInput _ _ = _
    toktok
    unfold pInput
    rw [step (pHead_ok h.1), step (pCtrl_ok hb h.2.2 (notNext_p (by decide))), step expect_ok, step (pNoDict_ok hbrace)]
    rfl
  | output ty nm ctrl src =>
    show pOutput _ _ = _
    toktok
    have hd : pDict (.p '{' :: .id "operandSegmentSizes".toList :: .p '=' :: .id "array".toList :: .p '<' :: .id "i32".toList :: .p ':' ::
        .num (Nat.toDigits 10 (count ctrl)) :: .p ',' :: .num (Nat.toDigits 10 (count src)) :: .p '>' :: .p '}' :: r) =
        some ([("operandSegmentSizes".toList, .arr [(count ctrl : Int), (count src : Int)])], r) := by
      have hc : ∀ o : Option Nat, count o = 0 ∨ count o = 1 := by intro o; cases o <;> simp [count]
      rcases hc ctrl with e1 | e1 <;> rcases hc src with e2 | e2 <;> rw [e1, e2] <;> rfl
    unfold pOutput
    rw [step (pHead_ok h.1), step (pCtrl_ok hb h.2.2.1 (notNext_p (by decide))), step expect_ok,
      step (pSrc_ok hb h.2.2.2 (notNext_p (by decide))), step hd]
    rfl
  | constant ty v =>
    show pConstant _ = _
    toktok
    unfold pConstant
    rw [step expect_ok, step (pType_ok h.1), step expect_ok, step (pIntAttr_ok h.2), step (pNoDict_ok hbrace)]
    rfl
  | connect d s =>
    show pConnect _ _ = _
    toktok
    unfold pConnect
    rw [step expect_ok, step (pArg_ok hb h.1), step expect_ok, step (pArg_ok hb h.2), step expect_ok, step (pNoDict_ok hbrace)]
    rfl
  | latency l x res =>
    show pLatency _ _ _ = _
    toktok
    unfold pLatency
    rw [step expect_ok, step (pIntAttr_ok h.1), step expect_ok, step expect_ok, step (pArg_ok hb h.2.1), step expect_ok, step expect_ok,
      step (pType_ok h.2.2), step (pLatDict_ok hp h.1)]
    rfl
  | sched1 k l x res =>
    have : pOp pick (envOf tys) (Stmt.sched1 k l x res).name = pSched1 pick (envOf tys) k := by cases k <;> rfl
    rw [this]
    toktok
    unfold pSched1
    rw [step (pBracket_ok h.1), step expect_ok, step (pArg_ok hb h.2.1), step expect_ok, step expect_ok, step (pType_ok h.2.2),
      step (pLatDict_ok hp h.1.attr)]
    rfl
  | sched2 k l x y res =>
    have : pOp pick (envOf tys) (Stmt.sched2 k l x y res).name = pSched2 pick (envOf tys) k := by cases k <;> rfl
    rw [this]
    toktok
    unfold pSched2
    rw [step (pBracket_ok h.1), step expect_ok, step (pArg_ok hb h.2.1), step expect_ok, step (pArg_ok hb h.2.2.1), step expect_ok, step expect_ok,
      step (pType_ok h.2.2.2), step (pLatDict_ok hp h.1.attr)]
    rfl
  | comb2 k x y res =>
    have : pOp pick (envOf tys) (Stmt.comb2 k x y res).name = pComb2 (envOf tys) k := by cases k <;> rfl
    rw [this]
    toktok
    unfold pComb2
    rw [step expect_ok, step (pArg_ok hb h.1), step expect_ok, step (pArg_ok hb h.2.1), step expect_ok, step expect_ok, step (pType_ok h.2.2),
      step (pNoDict_ok hbrace)]
    rfl
  | not x res =>
    show pNot _ _ = _
    toktok
    unfold pNot
    rw [step expect_ok, step (pArg_ok hb h.1), step expect_ok, step expect_ok, step (pType_ok h.2), step (pNoDict_ok hbrace)]
    rfl
  | offset x o res =>
    obtain ⟨h1, h2, t, rfl⟩ := h
    obtain ⟨h3, h4⟩ := tyOf_some h2
    have ht : TyOK t := (h4 ▸ tyOf_ok hb h3 : TyOK (.wrap .stream t))
    show pOffset _ _ = _
    simp only [argsP]
    rw [show toks ([pc '(', valP x, pc ',', sp] ++ attrP o ++ [pc ')', sp, pc ':', sp] ++ tyP (.wrap .stream t)) ++ r =
      .p '(' :: .val (Nat.toDigits 10 x) :: .p ',' :: (toks (attrP o) ++ .p ')' :: .p ':' :: (toks (tyP (.wrap .stream t)) ++ r)) by
        simp [toks_append, pc, sp, valP]]
    unfold pOffset
    have h5 := resolve_ok h3 (ts := r)
    rw [h4] at h5
    rw [step expect_ok, step pOperand_ok, step expect_ok, step (pIntAttr_ok h1), step expect_ok, step (pNoDict_ok (notNext_p (by decide))),
      step expect_ok, step (pWrapTy_full ht), step h5]
    rfl
  | convert x res =>
    obtain ⟨h1, h2, t, rfl⟩ := h
    show pConvert _ _ = _
    toktok
    unfold pConvert
    rw [step expect_ok, step (pArg_ok hb h1), step expect_ok, step (pNoDict_ok (notNext_p (by decide))), step expect_ok, step (pWrapTy_short (show TyOK t from h2))]
    rfl
  | mux c vs res =>
    obtain ⟨h1, h2, h3, h4⟩ := h
    show pMux _ _ = _
    cases vs with
    | nil => exact absurd rfl h3
    | cons v vs =>
      have e : toks (argsP tys (.mux c (v :: vs) res)) ++ r = .p '(' :: .val (Nat.toDigits 10 c) :: .p ':' :: (toks (tyP (tyOf tys c)) ++ .p ',' ::
          (.val (Nat.toDigits 10 v) :: (toks (if tyOf tys v = res then [] else [pc ':', sp] ++ tyP (tyOf tys v)) ++
            (toks (vs.flatMap (muxVarP tys res)) ++ (.p ')' :: .p ':' :: (toks (tyP res) ++ r)))))) := by
        rw [argsP, List.flatMap_cons, show muxVarP tys res v = [pc ',', sp, valP v] ++ (if tyOf tys v = res then [] else [pc ':', sp] ++ tyP (tyOf tys v)) from rfl]
        simp only [toks_append, pc, sp, valP, toks_tok, toks_ws, toks_nil, List.cons_append, List.nil_append, List.append_assoc]
      rw [e]
      have hm : sepBy1 pMuxVar (.val (Nat.toDigits 10 v) :: (toks (if tyOf tys v = res then [] else [pc ':', sp] ++ tyP (tyOf tys v)) ++
            (toks (vs.flatMap (muxVarP tys res)) ++ (.p ')' :: .p ':' :: (toks (tyP res) ++ r))))) =
          some (muxNames tys res (v :: vs), .p ')' :: .p ':' :: (toks (tyP res) ++ r)) := by
        unfold sepBy1
        refine pMuxVars_ok hb (h2 v (by simp)) (fun x hx => h2 x (by simp [hx])) (notNext_p (by decide)) (notNext_p (by decide)) ?_
        have : ∀ l : List Nat, l.length ≤ (toks (l.flatMap (muxVarP tys res))).length := by
          intro l
          induction l with
          | nil => simp
          | cons a l ih =>
            rw [List.flatMap_cons, toks_append, List.length_append, List.length_cons]
            have : 1 ≤ (toks (muxVarP tys res a)).length := by simp [muxVarP, toks_append, pc]
            omega
        have := this vs
        simp only [List.length_cons, List.length_append]
        omega
      unfold pMux
      rw [step expect_ok, step pOperand_ok, step expect_ok, step (pType_ok (tyOf_ok hb h1)), step expect_ok, step hm, step expect_ok, step expect_ok,
        step (pType_ok h4), step (pNoDict_ok hbrace), step (resolve_ok h1), step (resolveAll_ok hb h2)]
      rfl
  | bits x l r' res =>
    show pBits _ _ = _
    toktok
    unfold pBits
    rw [step expect_ok, step (pArg_ok hb h.1), step expect_ok, step (pIntAttr_ok h.2.1), step expect_ok, step (pIntAttr_ok h.2.2.1), step expect_ok,
      step expect_ok, step (pType_ok h.2.2.2), step (pNoDict_ok hbrace)]
    rfl
  | shift k x n res =>
    have : pOp pick (envOf tys) (Stmt.shift k x n res).name = pShift (envOf tys) k := by cases k <;> rfl
    rw [this]
    toktok
    unfold pShift
    rw [step expect_ok, step (pArg_ok hb h.1), step expect_ok, step (pIntAttr_ok h.2.1), step expect_ok,
      step expect_ok, step (pType_ok h.2.2), step (pNoDict_ok hbrace)]
    rfl
  | counter ty m =>
    obtain ⟨h1, t, h2⟩ := h
    obtain ⟨h3, h4⟩ := tyOf_some h2
    have ht : TyOK t := (h4 ▸ tyOf_ok hb h3 : TyOK (.wrap .scalar t))
    show pCounter _ _ = _
    simp only [argsP, h4]
    rw [show toks ([pc '<'] ++ tyP ty ++ [pc '>', sp, pc '(', valP m, pc ':', sp] ++ tyP (.wrap .scalar t) ++ [pc ')']) ++ r =
      .p '<' :: (toks (tyP ty) ++ .p '>' :: .p '(' :: .val (Nat.toDigits 10 m) :: .p ':' :: (toks (tyP (.wrap .scalar t)) ++ .p ')' :: r)) by
        simp [toks_append, pc, sp, valP]]
    unfold pCounter
    have h5 := resolve_ok h3 (ts := r)
    rw [h4] at h5
    rw [step expect_ok, step (pType_ok h1), step expect_ok, step expect_ok, step pOperand_ok, step expect_ok, step (pWrapTy_full ht), step expect_ok,
      step (pNoDict_ok hbrace), step h5]
    rfl

end

/-- The type of the result of a well-formed operation is well-formed. -/
theorem StmtOK.res {tys : List Ty} (hb : ∀ t ∈ tys, TyOK t) {s : Stmt} (h : StmtOK tys s) : ∀ t ∈ s.res, TyOK t := by
  intro t ht
  cases s <;> simp only [Stmt.res, Option.mem_def, Option.some.injEq, reduceCtorEq] at ht <;> subst ht
  · exact h.1
  · exact h.1
  · exact h.1
  · exact h.1
  · exact h.1
  · exact h.2.2
  · exact h.2.2
  · exact h.2.2.2
  · exact h.2.2
  · exact h.2
  · obtain ⟨h1, h2, t, rfl⟩ := h
    obtain ⟨h3, h4⟩ := tyOf_some h2
    exact h4 ▸ tyOf_ok hb h3
  · exact h.2.1
  · exact h.2.2.2
  · exact h.2.2.2
  · exact h.2.2
  · exact h.1

/-- The tokens of a block start with a value, a name, or what follows the block. -/
theorem block_stop {tys : List Ty} {l : List Stmt} {r : List Tok} : Stop (toks (blockP tys l) ++ .p '}' :: r) ∧
    notNext '{' (toks (blockP tys l) ++ .p '}' :: r) := by
  cases l with
  | nil =>
    refine ⟨?_, notNext_p (by decide)⟩
    intro d hd
    simp [blockP] at hd
    exact hd.symm
  | cons s l =>
    have : ∃ t x, toks (blockP tys (s :: l)) ++ .p '}' :: r = t :: x ∧ ∀ d, t ≠ .p d := by
      cases hs : s.res with
      | none => exact ⟨.id s.name, _, by simp [blockP, hs, resP, kw]; rfl, by simp⟩
      | some t => exact ⟨.val (Nat.toDigits 10 tys.length), _, by simp [blockP, hs, resP, valP]; rfl, by simp⟩
    obtain ⟨t, x, h1, h2⟩ := this
    rw [h1]
    exact ⟨fun d hd => absurd (by simpa using hd) (h2 d), fun d hd => absurd (by simpa using hd) (h2 d)⟩

theorem pBlockF_ok {pick : IntAttr → IntAttr → IntAttr} (hp : ∀ a, pick a a = a) : ∀ {l : List Stmt} {tys : List Ty} {n : Nat} {r : List Tok},
    (∀ t ∈ tys, TyOK t) → BlockOK tys l → l.length < n →
    pBlockF pick n (envOf tys) (toks (blockP tys l) ++ .p '}' :: r) = some (l, .p '}' :: r)
  | [], tys, n, r, _, _, hn => by
    obtain ⟨m, rfl⟩ : ∃ m, n = m + 1 := ⟨n - 1, by omega⟩
    rfl
  | s :: l, tys, n, r, hb, h, hn => by
    obtain ⟨m, rfl⟩ : ∃ m, n = m + 1 := ⟨n - 1, by omega⟩
    have hb2 : ∀ t ∈ tys ++ s.res.toList, TyOK t := by
      intro t ht
      rcases List.mem_append.mp ht with ht | ht
      · exact hb t ht
      · exact h.1.res hb t (by simpa using ht)
    have ih := pBlockF_ok hp (r := r) hb2 h.2 (show l.length < m by simp at hn; omega)
    obtain ⟨hs1, hs2⟩ := block_stop (tys := tys ++ s.res.toList) (l := l) (r := r)
    have ho := pOp_ok hb h.1 hp hs1 hs2
    cases hres : s.res with
    | none =>
      have e : toks (blockP tys (s :: l)) ++ .p '}' :: r = .id s.name :: (toks (argsP tys s) ++ (toks (blockP (tys ++ s.res.toList) l) ++ .p '}' :: r)) := by
        simp [blockP, hres, resP, kw, toks_append]
      rw [e, pBlockF]
      simp only [ho]
      simp only [hres, Option.toList_none, List.map_nil, List.append_nil] at ih ⊢
      rw [step ih]
      rfl
    | some t =>
      have e : toks (blockP tys (s :: l)) ++ .p '}' :: r = .val (Nat.toDigits 10 tys.length) :: .p '=' :: .id s.name ::
          (toks (argsP tys s) ++ (toks (blockP (tys ++ s.res.toList) l) ++ .p '}' :: r)) := by
        simp [blockP, hres, resP, kw, toks_append, valP, pc, sp]
      rw [e, pBlockF]
      have hl : lookup 0 (envOf tys) (Nat.toDigits 10 tys.length) = none := by rw [lookup_ok, if_neg (by omega)]
      simp only [hl, Option.isSome_none, Bool.false_eq_true, if_false, ho]
      simp only [hres, Option.toList_some] at ih ⊢
      rw [envOf_append] at ih
      rw [step ih]
      rfl

theorem blockP_length : ∀ (l : List Stmt) (tys : List Ty), l.length ≤ (toks (blockP tys l)).length
  | [], _ => by simp
  | s :: l, tys => by
    have ih := blockP_length l (tys ++ s.res.toList)
    simp only [blockP, toks_append, List.length_append, List.length_cons, kw, toks_tok, toks_nil]
    omega

theorem pKeyword_ok {k : List Char} {r : List Tok} : pKeyword k (.id k :: r) = some ((), r) := by simp [pKeyword]

/-- **C67.** The text printed for a well-formed module is parsed as that module. -/
theorem print_parse {pick : IntAttr → IntAttr → IntAttr} (hp : ∀ a, pick a a = a) {f : File} (h : FileOK f) : parse pick (print f) = some f := by
  have hbk := pBlockF_ok hp (tys := []) (l := f.body) (r := [Tok.p '}']) (by simp) h.2 (n := (toks (blockP [] f.body) ++ [Tok.p '}', Tok.p '}']).length + 1) (by
    have := blockP_length f.body []
    simp only [List.length_append]
    omega)
  have hpf : pFile pick (toks (fileP f)) = some (f, []) := by
    have e : toks (fileP f) = .id "module".toList :: .p '{' :: .id "dfcir.kernel".toList :: .str f.name :: .p '{' ::
        (toks (blockP [] f.body) ++ [Tok.p '}', Tok.p '}']) := by
      simp [fileP, toks_append, kw, pc, sp, strP]
    rw [e]
    unfold pFile
    rw [step pKeyword_ok, step expect_ok,
      step pKeyword_ok, step pStr_ok, step expect_ok,
      step (show pBlock pick _ = _ from hbk), step expect_ok, step (pNoDict_ok (notNext_p (by decide))), step expect_ok]
    rfl
  unfold parse
  rw [lex_print h]
  simp only [hpf]

/-- **C67.** Two well-formed modules with the same text are the same module. -/
theorem print_inj {f g : File} (hf : FileOK f) (hg : FileOK g) (h : print f = print g) : f = g := by
  have h1 := print_parse (pick := fun a _ => a) (fun _ => rfl) hf
  have h2 := print_parse (pick := fun a _ => a) (fun _ => rfl) hg
  rw [h, h2] at h1
  exact (Option.some.inj h1).symm

end Verif.Text
