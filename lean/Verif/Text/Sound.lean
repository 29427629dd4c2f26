import Verif.Text.Round
/-
C67, the other direction: whatever text the parser accepts is a well-formed module, so printing it gives a text with the same meaning.
-/
namespace Verif.Text

/-! ### Specification -/

/-- The latencies in brackets are 32-bit signless integers (a text may state others: DFCIROperations.td:151, 253 take any `IntegerAttr`). -/
def LatsOK (f : File) : Prop := ∀ s ∈ f.body, match s with
  | .sched1 _ l _ _ | .sched2 _ l _ _ _ => LatOK l
  | _ => True

/-! ### Strings of a text -/

def StrOK (ts : List Tok) : Prop := ∀ s, Tok.str s ∈ ts → NameOK s

theorem StrOK.tail {t : Tok} {r : List Tok} (h : StrOK (t :: r)) : StrOK r := fun s hs => h s (by simp [hs])

theorem byte_hex {x y : Nat} (hx : x < 16) (hy : y < 16) : (Char.ofNat (16 * x + y)).toNat < 256 := by
  have hv : (16 * x + y).isValidChar := Or.inl (by omega)
  simp only [Char.ofNat, hv, dif_pos, Char.toNat, Char.ofNatAux]
  show (UInt32.ofNatLT (16 * x + y) _).toNat < 256
  simp
  omega

theorem hexVal_lt {c : Char} {x : Nat} (h : hexVal c = some x) : x < 16 := by
  unfold hexVal at h
  split at h
  · next hc =>
    have h1 : '0'.toNat ≤ c.toNat := hc.1
    have h2 : c.toNat ≤ '9'.toNat := hc.2
    have e : '9'.toNat = 57 ∧ '0'.toNat = 48 := by decide
    have := Option.some.inj h
    omega
  · split at h
    · next hc =>
      have h2 : c.toNat ≤ 'F'.toNat := hc.2
      have e : 'F'.toNat = 70 ∧ 'A'.toNat = 65 := by decide
      have := Option.some.inj h
      omega
    · split at h
      · next hc =>
        have h2 : c.toNat ≤ 'f'.toNat := hc.2
        have e : 'f'.toNat = 102 ∧ 'a'.toNat = 97 := by decide
        have := Option.some.inj h
        omega
      · simp at h

def Bytes (cs : List Char) : Prop := ∀ c ∈ cs, c.toNat < 256

theorem Bytes.tail {c : Char} {r : List Char} (h : Bytes (c :: r)) : Bytes r := fun x hx => h x (by simp [hx])

theorem Bytes.drop {f : Char → Bool} {l : List Char} (h : Bytes l) : Bytes (l.dropWhile f) := fun x hx => h x ((List.dropWhile_sublist f).mem hx)

theorem lexStr_bytes : ∀ {n : Nat} {l : List Char}, l.length ≤ n → Bytes l → ∀ {s r}, lexStr l = some (s, r) → NameOK s ∧ Bytes r := by
  intro n
  induction n with
  | zero =>
    intro l hl hb s r h
    have : l = [] := List.length_eq_zero_iff.mp (by omega)
    subst this
    simp [lexStr] at h
  | succ n ih =>
    intro l hl hb s r h
    have step : ∀ (c : Char) (l' : List Char), l'.length ≤ n → Bytes l' → c.toNat < 256 → (lexStr l').map (fun x => (c :: x.1, x.2)) = some (s, r) →
        NameOK s ∧ Bytes r := by
      intro c l' hl' hb' hc h
      obtain ⟨⟨a, b⟩, h1, h2⟩ := Option.map_eq_some_iff.mp h
      obtain ⟨i1, i2⟩ := ih hl' hb' h1
      cases h2
      exact ⟨fun x hx => by rcases List.mem_cons.mp hx with rfl | hx <;> [exact hc; exact i1 x hx], i2⟩
    rw [lexStr.eq_def] at h
    split at h
    · simp at h
    · cases h; exact ⟨by intro c hc; simp at hc, hb.tail⟩
    · simp only [List.length_cons] at hl; exact step _ _ (by omega) hb.tail.tail (by decide) h
    · simp only [List.length_cons] at hl; exact step _ _ (by omega) hb.tail.tail (by decide) h
    · simp only [List.length_cons] at hl; exact step _ _ (by omega) hb.tail.tail (by decide) h
    · simp only [List.length_cons] at hl; exact step _ _ (by omega) hb.tail.tail (by decide) h
    · simp only [List.length_cons] at hl
      split at h
      · next ha hb' => exact step _ _ (by omega) hb.tail.tail.tail (byte_hex (hexVal_lt ha) (hexVal_lt hb')) h
      · simp at h
    · simp only [List.length_cons] at hl
      split at h
      · simp at h
      · exact step _ _ (by omega) hb.tail (hb _ (by simp)) h

theorem lexSuffix_bytes {mk : List Char → Tok} {l : List Char} (hb : Bytes l) {t : Tok} {r : List Char} (h : lexSuffix mk l = some (t, r)) :
    (∃ s, t = mk s) ∧ Bytes r := by
  unfold lexSuffix at h
  split at h
  · simp at h
  · split at h
    · cases h; exact ⟨⟨_, rfl⟩, hb.tail.drop⟩
    · split at h
      · cases h; exact ⟨⟨_, rfl⟩, hb.tail.drop⟩
      · simp at h

theorem lexTok_bytes {l : List Char} (hb : Bytes l) {t : Tok} {r : List Char} (h : lexTok l = some (t, r)) :
    (∀ s, t = .str s → NameOK s) ∧ Bytes r := by
  unfold lexTok at h
  split at h
  · simp at h
  · split at h
    · cases h; exact ⟨by simp, hb.tail.drop⟩
    · split at h
      · dsimp only at h
        split at h
        · simp at h
        · cases h; exact ⟨by simp, hb.tail.drop⟩
      · split at h
        · obtain ⟨⟨s, rfl⟩, h2⟩ := lexSuffix_bytes hb.tail h; exact ⟨by simp, h2⟩
        · split at h
          · obtain ⟨⟨s, rfl⟩, h2⟩ := lexSuffix_bytes hb.tail h; exact ⟨by simp, h2⟩
          · split at h
            · obtain ⟨⟨a, b⟩, h1, h2⟩ := Option.map_eq_some_iff.mp h
              cases h2
              obtain ⟨i1, i2⟩ := lexStr_bytes (Nat.le_refl _) hb.tail h1
              exact ⟨fun s hs => by cases hs; exact i1, i2⟩
            · split at h
              · simp at h
              · split at h
                · cases h; exact ⟨by simp, hb.tail⟩
                · simp at h

theorem lexAll_bytes : ∀ {n : Nat} {l : List Char} {ts : List Tok}, Bytes l → lexAll n l = some ts → StrOK ts
  | _, [], ts, _, h => by
    rw [lexAll.eq_def] at h
    cases h
    intro s hs; simp at hs
  | 0, c :: r, ts, _, h => by simp [lexAll] at h
  | n + 1, c :: r, ts, hb, h => by
    rw [lexAll] at h
    split at h
    · exact lexAll_bytes hb.tail h
    · split at h
      · exact lexAll_bytes hb.tail.drop h
      · split at h
        · next t r' ht =>
          obtain ⟨h1, h2⟩ := lexTok_bytes hb ht
          obtain ⟨ts', h3, rfl⟩ := Option.map_eq_some_iff.mp h
          have := lexAll_bytes h2 h3
          intro s hs
          rcases List.mem_cons.mp hs with h | h
          · exact h1 s h.symm
          · exact this s h
        · simp at h

/-! ### What parsers return -/

/-- A result of `p` satisfies `Q`. -/
def Post {α : Type} (p : P α) (Q : α → Prop) : Prop := ∀ ts a r, StrOK ts → p ts = some (a, r) → StrOK r ∧ Q a

namespace Post
variable {α β : Type}

theorem bind {x : P α} {f : α → P β} {Q : α → Prop} {R : β → Prop} (h1 : Post x Q) (h2 : ∀ a, Q a → Post (f a) R) : Post (x >>= f) R := by
  intro ts b r hs h
  change (match x ts with | some (a, r) => f a r | none => none) = some (b, r) at h
  split at h
  · next a r1 hx =>
    obtain ⟨i1, i2⟩ := h1 ts a r1 hs hx
    exact h2 a i2 r1 b r i1 h
  · simp at h

theorem pure {a : α} {Q : α → Prop} (h : Q a) : Post (Pure.pure a : P α) Q := by
  intro ts b r hs h'
  have : some (a, ts) = some (b, r) := h'
  cases this
  exact ⟨hs, h⟩

theorem fail {Q : α → Prop} : Post (Text.fail : P α) Q := by
  intro ts b r hs h'
  simp [Text.fail] at h'

theorem mono {p : P α} {Q R : α → Prop} (h : Post p Q) (hr : ∀ a, Q a → R a) : Post p R := fun ts a r hs hp => ⟨(h ts a r hs hp).1, hr a (h ts a r hs hp).2⟩

theorem use {p : P α} {Q : α → Prop} (h : Post p Q) {ts : List Tok} {a : α} {r : List Tok} (hs : StrOK ts) (hp : p ts = some (a, r)) :
    StrOK r ∧ Q a := h ts a r hs hp

theorem expect {c : Char} : Post (Text.expect c) fun _ => True := by
  intro ts b r hs h
  unfold Text.expect at h
  split at h
  · split at h
    · cases h; exact ⟨hs.tail, trivial⟩
    · simp at h
  · simp at h

theorem opt {c : Char} : Post (Text.opt c) fun _ => True := by
  intro ts b r hs h
  unfold Text.opt at h
  split at h
  · split at h
    · cases h; exact ⟨hs.tail, trivial⟩
    · cases h; exact ⟨hs, trivial⟩
  · cases h; exact ⟨hs, trivial⟩

theorem ite {c : Prop} [Decidable c] {p q : P α} {Q : α → Prop} (h1 : c → Post p Q) (h2 : ¬c → Post q Q) : Post (if c then p else q) Q := by
  split
  · next h => exact h1 h
  · next h => exact h2 h

theorem sepBy1F {p : P α} {Q : α → Prop} (h : Post p Q) : ∀ n, Post (Text.sepBy1F p n) fun l => l ≠ [] ∧ ∀ a ∈ l, Q a
  | 0 => Post.fail
  | n + 1 => by
    refine bind h fun a ha => bind opt fun b _ => ite (fun _ => ?_) fun _ => ?_
    · exact bind (sepBy1F h n) fun l hl => pure ⟨by simp, fun x hx => by rcases List.mem_cons.mp hx with rfl | hx <;> [exact ha; exact hl.2 x hx]⟩
    · exact pure ⟨by simp, fun x hx => by simp at hx; exact hx ▸ ha⟩

theorem sepBy1 {p : P α} {Q : α → Prop} (h : Post p Q) : Post (Text.sepBy1 p) fun l => l ≠ [] ∧ ∀ a ∈ l, Q a :=
  fun ts a r hs hp => sepBy1F h ts.length ts a r hs hp

end Post

theorem pU32_post : Post pU32 (· < 2 ^ 32) := by
  intro ts a r hs h
  unfold pU32 at h
  split at h
  · split at h
    · next hn => cases h; exact ⟨hs.tail, hn⟩
    · simp at h
  · simp at h

theorem pBool_post : Post pBool fun _ => True := by
  intro ts a r hs h
  unfold pBool at h
  split at h
  · split at h
    · cases h; exact ⟨hs.tail, trivial⟩
    · split at h
      · cases h; exact ⟨hs.tail, trivial⟩
      · simp at h
  · split at h
    · cases h; exact ⟨hs.tail, trivial⟩
    · simp at h
  · simp at h

theorem intTy_tyOK {s : List Char} {t : Ty} (h : intTy s = some t) : TyOK t := by
  have key : ∀ sg ds, mkIntTy sg ds = some t → TyOK t := by
    intro sg ds h
    unfold mkIntTy at h
    split at h
    · next hc => cases h; exact hc.2.2
    · simp at h
  unfold intTy at h
  split at h
  · exact key _ _ h
  · exact key _ _ h
  · exact key _ _ h
  · simp at h

theorem pTypeF_post : ∀ n, Post (pTypeF n) TyOK
  | 0 => Post.fail
  | n + 1 => by
    intro ts a r hs h
    rw [pTypeF] at h
    dsimp only at h
    split at h
    · have hs' := hs.tail
      split at h
      · exact (Post.bind Post.expect fun _ _ => Post.bind pBool_post fun _ _ => Post.bind Post.expect fun _ _ => Post.bind pU32_post fun i hi =>
          Post.bind Post.expect fun _ _ => Post.bind pU32_post fun f hf => Post.bind Post.expect fun _ _ => Post.pure ⟨hi, hf⟩) _ _ _ hs' h
      · split at h
        · exact (Post.bind Post.expect fun _ _ => Post.bind pU32_post fun i hi => Post.bind Post.expect fun _ _ => Post.bind pU32_post fun f hf =>
            Post.bind Post.expect fun _ _ => Post.pure ⟨hi, hf⟩) _ _ _ hs' h
        · split at h
          · exact (Post.bind Post.expect fun _ _ => Post.bind pU32_post fun i hi => Post.bind Post.expect fun _ _ => Post.pure hi) _ _ _ hs' h
          · split at h
            · next w _ =>
              exact Post.use (p := do expect '<'; let t ← pTypeF n; expect '>'; return Ty.wrap w t) (Q := TyOK)
                (Post.bind Post.expect fun _ _ => Post.bind (pTypeF_post n) fun t ht => Post.bind Post.expect fun _ _ => Post.pure ht) hs' h
            · simp at h
    · obtain ⟨t, h1, h2⟩ := Option.map_eq_some_iff.mp h
      cases h2
      exact ⟨hs.tail, intTy_tyOK h1⟩
    · simp at h

theorem pType_post : Post pType TyOK := fun ts a r hs h => pTypeF_post _ ts a r hs h

theorem pWrapTy_post (w : Wrap) : Post (pWrapTy w) fun t => TyOK t ∧ ∃ x, t = .wrap w x := by
  intro ts a r hs h
  unfold pWrapTy at h
  split at h
  · refine Post.use (Q := fun t => TyOK t ∧ ∃ x, t = .wrap w x) (Post.bind pType_post fun t ht => ?_) hs h
    cases t with
    | wrap w' x => exact Post.ite (fun hw => Post.pure ⟨ht, x, rfl⟩) fun _ => Post.fail
    | _ => exact Post.fail
  · exact Post.use (p := do expect '<'; let t ← pType; expect '>'; return Ty.wrap w t) (Q := fun t => TyOK t ∧ ∃ x, t = .wrap w x)
      (Post.bind Post.expect fun _ _ => Post.bind pType_post fun t ht => Post.bind Post.expect fun _ _ => Post.pure ⟨ht, t, rfl⟩) hs h

theorem readInt_lt {s : Sign} {w : Nat} {neg : Bool} {n b : Nat} (h : readInt s w neg n = some b) : b < 2 ^ w := by
  unfold readInt at h
  split at h
  · simp at h
  · next hn =>
    split at h
    · split at h
      · simp at h
      · cases h; exact Nat.mod_lt _ (by positivity)
    · split at h
      · simp at h
      · cases h; omega

/-- The value of an accepted literal is the number written: modulo the width, and within the range of the type. -/
theorem readInt_value {s : Sign} {w : Nat} {neg : Bool} {n b : Nat} (h : readInt s w neg n = some b) :
    (s = .unsigned → neg = false ∧ b = n) ∧ (s = .signed → 0 < w → (⟨s, w, b⟩ : IntAttr).sext = if neg then -(n : Int) else n) := by
  unfold readInt at h
  split at h
  · simp at h
  · next hn =>
    cases neg with
    | false =>
      simp only [Bool.false_eq_true, if_false] at h ⊢
      split at h
      · simp at h
      · next hc =>
        cases h
        refine ⟨fun _ => ⟨trivial, rfl⟩, fun hs hw => ?_⟩
        have : n < 2 ^ (w - 1) := by
          by_contra hx
          exact hc ⟨hs, hw, by omega⟩
        have e : 2 ^ w = 2 * 2 ^ (w - 1) := by rw [← Nat.pow_succ']; congr 1; omega
        unfold IntAttr.sext
        rw [if_pos (by simp only; omega)]
    | true =>
      simp only [if_true] at h ⊢
      split at h
      · simp at h
      · next hc =>
        push Not at hc
        obtain ⟨h1, h2, h3⟩ := hc
        cases h
        refine ⟨fun hs => absurd hs h1, fun hs hw => ?_⟩
        have e : 2 ^ w = 2 * 2 ^ (w - 1) := by rw [← Nat.pow_succ']; congr 1; omega
        by_cases hz : n = 0
        · subst hz
          simp at h3
        · have hlt : (2 ^ w - n) % 2 ^ w = 2 ^ w - n := Nat.mod_eq_of_lt (by omega)
          unfold IntAttr.sext
          simp only
          rw [hlt] at h3 ⊢
          rw [if_neg (by omega)]
          have : ((2 ^ w : Nat) : Int) = (2 : Int) ^ w := by push_cast; rfl
          omega

theorem pIntTail_post {neg : Bool} {ds : List Char} : Post (pIntTail neg ds) AttrOK := by
  have tail : ∀ ty, TyOK ty → Post (match ty with
      | .int s w => match readInt s w neg (Nat.ofDigitChars 10 ds 0) with
        | some b => Pure.pure ⟨s, w, b⟩
        | none => fail
      | _ => fail : P IntAttr) AttrOK := by
    intro ty ht
    cases ty with
    | int s w =>
      cases hr : readInt s w neg (Nat.ofDigitChars 10 ds 0) with
      | none => simp only [hr]; exact Post.fail
      | some b => simp only [hr]; exact Post.pure ⟨ht, readInt_lt hr⟩
    | _ => exact Post.fail
  unfold pIntTail
  refine Post.bind Post.opt fun b _ => ?_
  cases b with
  | true => exact Post.bind pType_post tail
  | false => exact Post.bind (Q := TyOK) (Post.pure (by simp [TyOK])) tail

theorem pIntAttr_post : Post pIntAttr AttrOK := by
  intro ts a r hs h
  unfold pIntAttr at h
  split at h
  · split at h
    · cases h; exact ⟨hs.tail, by decide, by decide⟩
    · split at h
      · cases h; exact ⟨hs.tail, by decide, by decide⟩
      · simp at h
  · exact pIntTail_post _ _ _ hs.tail.tail h
  · exact pIntTail_post _ _ _ hs.tail h
  · simp at h

theorem pInt_post : Post pInt fun _ => True := by
  intro ts a r hs h
  unfold pInt at h
  split at h
  · cases h; exact ⟨hs.tail.tail, trivial⟩
  · cases h; exact ⟨hs.tail, trivial⟩
  · simp at h

def AttrVOK : AttrV → Prop
  | .int a => AttrOK a
  | .arr _ => True

theorem pAttrV_post : Post pAttrV AttrVOK := by
  have hi : Post (do let a ← pIntAttr; return AttrV.int a : P AttrV) AttrVOK := Post.bind pIntAttr_post fun a ha => Post.pure ha
  intro ts a r hs h
  unfold pAttrV at h
  split at h
  · split at h
    · refine (Post.bind Post.expect fun _ _ => Post.bind pType_post fun t ht => Post.ite (fun _ => Post.bind Post.opt fun b _ => ?_) fun _ => Post.fail)
        _ _ _ hs.tail h
      cases b with
      | true => exact Post.bind (Post.sepBy1 pInt_post) fun l _ => Post.bind Post.expect fun _ _ => Post.pure trivial
      | false => exact Post.bind Post.expect fun _ _ => Post.pure trivial
    · exact hi _ _ _ hs h
  · exact hi _ _ _ hs h

theorem pKey_post : Post pKey fun _ => True := by
  intro ts a r hs h
  unfold pKey at h
  split at h
  · cases h; exact ⟨hs.tail, trivial⟩
  · cases h; exact ⟨hs.tail, trivial⟩
  · simp at h

theorem pDict_post : Post pDict fun d => ∀ x ∈ d, AttrVOK x.2 := by
  have he : Post pEntry fun x => AttrVOK x.2 := Post.bind pKey_post fun k _ => Post.bind Post.expect fun _ _ => Post.bind pAttrV_post fun v hv => Post.pure hv
  unfold pDict
  refine Post.bind Post.opt fun b _ => ?_
  cases b with
  | false => exact Post.pure (by simp)
  | true =>
    refine Post.bind Post.opt fun b _ => ?_
    cases b with
    | true => exact Post.pure (by simp)
    | false => exact Post.bind (Post.sepBy1 he) fun l hl => Post.bind Post.expect fun _ _ => Post.ite (fun _ => Post.pure hl.2) fun _ => Post.fail

theorem pNoDict_post : Post pNoDict fun _ => True := Post.bind pDict_post fun _ _ => Post.ite (fun _ => Post.pure trivial) fun _ => Post.fail

theorem pStr_post : Post pStr NameOK := by
  intro ts a r hs h
  unfold pStr at h
  split at h
  · cases h; exact ⟨hs.tail, hs _ (by simp)⟩
  · simp at h

theorem pHead_post : Post pHead fun h => TyOK h.1 ∧ NameOK h.2 :=
  Post.bind Post.expect fun _ _ => Post.bind pType_post fun t ht => Post.bind Post.expect fun _ _ => Post.bind Post.expect fun _ _ =>
    Post.bind pStr_post fun s hs => Post.pure ⟨ht, hs⟩

/-! ### Operands -/

/-- The types of the values in scope. -/
def tysOf (env : Env) : List Ty := env.map (·.2)

theorem lookup_get : ∀ {env : Env} {k : Nat} {s : List Char} {v : Nat} {t : Ty}, lookup k env s = some (v, t) → k ≤ v ∧ env[v - k]? = some (s, t)
  | [], _, _, _, _, h => by simp [lookup] at h
  | (n, t') :: env, k, s, v, t, h => by
    rw [lookup] at h
    split at h
    · next he => cases h; exact ⟨Nat.le_refl _, by simp [he]⟩
    · obtain ⟨h1, h2⟩ := lookup_get h
      refine ⟨by omega, ?_⟩
      rw [show v - k = (v - (k + 1)) + 1 by omega]
      simpa using h2

theorem resolve_post {env : Env} {s : List Char} {t : Ty} : Post (resolve env s t) fun v => env[v]? = some (s, t) := by
  unfold resolve
  split
  · next v t' h =>
    refine Post.ite (fun ht => Post.pure ?_) fun _ => Post.fail
    have := (lookup_get h).2
    rw [ht] at this
    simpa using this
  · exact Post.fail

theorem env_tys {env : Env} {v : Nat} {s : List Char} {t : Ty} (h : env[v]? = some (s, t)) : (tysOf env)[v]? = some t ∧ v < (tysOf env).length := by
  have : (tysOf env)[v]? = some t := by simp [tysOf, h]
  exact ⟨this, (List.getElem?_eq_some_iff.mp this).1⟩

theorem pOperand_post : Post pOperand fun _ => True := by
  intro ts a r hs h
  unfold pOperand at h
  split at h
  · cases h; exact ⟨hs.tail, trivial⟩
  · simp at h

theorem pArg_post {env : Env} : Post (pArg env) (· < (tysOf env).length) :=
  Post.bind pOperand_post fun s _ => Post.bind Post.expect fun _ _ => Post.bind pType_post fun t _ => resolve_post.mono fun v hv => (env_tys hv).2

/-- An accepted operand `%s : t` is a value named `s` in scope, and `t` is its type. -/
theorem pArg_sound {env : Env} {ts r : List Tok} {v : Nat} (h : pArg env ts = some (v, r)) :
    ∃ s t r1, ts = .val s :: .p ':' :: r1 ∧ pType r1 = some (t, r) ∧ env[v]? = some (s, t) := by
  cases ts with
  | nil => simp [pArg, pOperand, bind] at h
  | cons a ts =>
    cases a with
    | val s =>
      cases ts with
      | nil => simp [pArg, pOperand, expect, bind] at h
      | cons b ts =>
        cases b with
        | p c =>
          by_cases hc : c = ':'
          · subst hc
            have h' := h
            simp [pArg, pOperand, expect, bind] at h'
            cases ht : pType ts with
            | none => rw [ht] at h'; simp at h'
            | some x =>
              obtain ⟨t, r1⟩ := x
              rw [ht] at h'
              have h2 : resolve env s t r1 = some (v, r) := h'
              unfold resolve at h2
              cases hl : lookup 0 env s with
              | none => rw [hl] at h2; simp [fail] at h2
              | some y =>
                obtain ⟨v', t'⟩ := y
                rw [hl] at h2
                dsimp only at h2
                split at h2
                · next he =>
                  have : some (v', r1) = some (v, r) := h2
                  cases this
                  refine ⟨s, t, ts, rfl, ht, ?_⟩
                  have := (lookup_get hl).2
                  rw [he] at this
                  simpa using this
                · simp [fail] at h2
          · simp [pArg, pOperand, expect, hc, bind] at h
        | _ => simp [pArg, pOperand, expect, bind] at h
    | _ => simp [pArg, pOperand, bind] at h

theorem pOptArg_post {env : Env} : Post (pOptArg env) fun o => ∀ v ∈ o, v < (tysOf env).length := by
  intro ts a r hs h
  unfold pOptArg at h
  split at h
  · exact Post.use (Q := fun o => ∀ v ∈ o, v < (tysOf env).length)
      (Post.bind pArg_post fun v hv => Post.pure (by intro x hx; cases hx; exact hv)) hs h
  · split at h
    · simp at h
    · split at h
      · simp at h
      · cases h; exact ⟨hs.tail, by simp⟩
    · cases h; exact ⟨hs.tail, by simp⟩
  · simp at h

theorem pCtrl_post {env : Env} : Post (pCtrl env) fun o => ∀ v ∈ o, v < (tysOf env).length := by
  unfold pCtrl
  refine Post.bind Post.opt fun b _ => ?_
  cases b with
  | true => exact pOptArg_post
  | false => exact Post.pure (by simp)

theorem pSrc_post {env : Env} : Post (pSrc env) fun o => ∀ v ∈ o, v < (tysOf env).length := by
  unfold pSrc
  refine Post.bind Post.opt fun b _ => ?_
  cases b with
  | true => exact Post.bind Post.expect fun _ _ => pOptArg_post
  | false => exact Post.pure (by simp)

theorem pBracket_post : Post pBracket AttrOK := by
  unfold pBracket
  refine Post.bind Post.expect fun _ _ => Post.bind Post.opt fun b _ => ?_
  cases b with
  | true => exact Post.bind Post.expect fun _ _ => Post.pure ⟨by decide, by decide⟩
  | false => exact Post.bind pIntAttr_post fun a ha => Post.bind Post.expect fun _ _ => Post.pure ha

section
variable {pick : IntAttr → IntAttr → IntAttr} (hp : ∀ a b, pick a b = a ∨ pick a b = b)
include hp

theorem pLatDict_post {br : IntAttr} (hb : AttrOK br) : Post (pLatDict pick br) AttrOK := by
  unfold pLatDict
  refine Post.bind pDict_post fun d hd => ?_
  split
  · exact Post.pure hb
  · next k a =>
    refine Post.ite (fun _ => Post.pure ?_) fun _ => Post.fail
    have : AttrOK a := hd (k, .int a) (by simp)
    rcases hp br a with h | h <;> rw [h] <;> assumption
  · exact Post.fail

end

theorem pMuxVar_post : Post pMuxVar fun _ => True := by
  unfold pMuxVar
  refine Post.bind pOperand_post fun s _ => Post.bind Post.opt fun b _ => ?_
  cases b with
  | true => exact Post.bind pType_post fun t _ => Post.pure trivial
  | false => exact Post.pure trivial

theorem resolveAll_post {env : Env} {res : Ty} : ∀ {l : List (List Char × Option Ty)}, Post (resolveAll env res l)
    fun vs => vs.length = l.length ∧ ∀ v ∈ vs, v < (tysOf env).length
  | [] => Post.pure (by simp)
  | (s, t) :: l => Post.bind resolve_post fun v hv => Post.bind resolveAll_post fun vs hvs => Post.pure
      ⟨by simp [hvs.1], fun x hx => by rcases List.mem_cons.mp hx with rfl | hx <;> [exact (env_tys hv).2; exact hvs.2 x hx]⟩

/-- What an accepted operation satisfies, once its latency is a 32-bit integer. -/
def StmtOK' (tys : List Ty) (s : Stmt) : Prop :=
  (match s with
    | .sched1 _ l _ _ | .sched2 _ l _ _ _ => LatOK l
    | _ => True) → StmtOK tys s

section
variable {pick : IntAttr → IntAttr → IntAttr} (hp : ∀ a b, pick a b = a ∨ pick a b = b)
include hp

theorem pOp_post {env : Env} {s : List Char} : Post (pOp pick env s) (StmtOK' (tysOf env)) := by
  unfold pOp
  refine Post.ite (fun _ => ?_) fun _ => Post.ite (fun _ => ?_) fun _ => Post.ite (fun _ => ?_) fun _ => Post.ite (fun _ => ?_) fun _ =>
    Post.ite (fun _ => ?_) fun _ => Post.ite (fun _ => ?_) fun _ => Post.ite (fun _ => ?_) fun _ => Post.ite (fun _ => ?_) fun _ =>
    Post.ite (fun _ => ?_) fun _ => Post.ite (fun _ => ?_) fun _ => Post.ite (fun _ => ?_) fun _ => Post.ite (fun _ => ?_) fun _ =>
    Post.ite (fun _ => ?_) fun _ => ?_
  · exact Post.bind pHead_post fun h hh => Post.bind Post.expect fun _ _ => Post.bind pNoDict_post fun _ _ => Post.pure fun _ => hh
  · exact Post.bind pHead_post fun h hh => Post.bind Post.expect fun _ _ => Post.bind pSrc_post fun s hs => Post.bind pNoDict_post fun _ _ =>
      Post.pure fun _ => ⟨hh.1, hh.2, hs⟩
  · exact Post.bind pHead_post fun h hh => Post.bind pCtrl_post fun c hc => Post.bind Post.expect fun _ _ => Post.bind pNoDict_post fun _ _ =>
      Post.pure fun _ => ⟨hh.1, hh.2, hc⟩
  · refine Post.bind pHead_post fun h hh => Post.bind pCtrl_post fun c hc => Post.bind Post.expect fun _ _ => Post.bind pSrc_post fun s hs =>
      Post.bind pDict_post fun d hd => ?_
    split
    · exact Post.pure fun _ => ⟨hh.1, hh.2, hc, hs⟩
    · exact Post.ite (fun _ => Post.pure fun _ => ⟨hh.1, hh.2, hc, hs⟩) fun _ => Post.fail
    · exact Post.fail
  · exact Post.bind Post.expect fun _ _ => Post.bind pType_post fun t ht => Post.bind Post.expect fun _ _ => Post.bind pIntAttr_post fun v hv =>
      Post.bind pNoDict_post fun _ _ => Post.pure fun _ => ⟨ht, hv⟩
  · exact Post.bind Post.expect fun _ _ => Post.bind pArg_post fun d hd => Post.bind Post.expect fun _ _ => Post.bind pArg_post fun s hs =>
      Post.bind Post.expect fun _ _ => Post.bind pNoDict_post fun _ _ => Post.pure fun _ => ⟨hd, hs⟩
  · exact Post.bind Post.expect fun _ _ => Post.bind pIntAttr_post fun a ha => Post.bind Post.expect fun _ _ => Post.bind Post.expect fun _ _ =>
      Post.bind pArg_post fun x hx => Post.bind Post.expect fun _ _ => Post.bind Post.expect fun _ _ => Post.bind pType_post fun t ht =>
      Post.bind (pLatDict_post hp ha) fun l hl => Post.pure fun _ => ⟨hl, hx, ht⟩
  · exact Post.bind Post.expect fun _ _ => Post.bind pArg_post fun x hx => Post.bind Post.expect fun _ _ => Post.bind Post.expect fun _ _ =>
      Post.bind pType_post fun t ht => Post.bind pNoDict_post fun _ _ => Post.pure fun _ => ⟨hx, ht⟩
  · exact Post.bind Post.expect fun _ _ => Post.bind pOperand_post fun s _ => Post.bind Post.expect fun _ _ => Post.bind pIntAttr_post fun o ho =>
      Post.bind Post.expect fun _ _ => Post.bind pNoDict_post fun _ _ => Post.bind Post.expect fun _ _ => Post.bind (pWrapTy_post .stream) fun t ht =>
      Post.bind resolve_post fun x hx => Post.pure fun _ => ⟨ho, (env_tys hx).1, ht.2⟩
  · exact Post.bind Post.expect fun _ _ => Post.bind pArg_post fun x hx => Post.bind Post.expect fun _ _ => Post.bind pNoDict_post fun _ _ =>
      Post.bind Post.expect fun _ _ => Post.bind (pWrapTy_post .stream) fun t ht => Post.pure fun _ => ⟨hx, ht.1, ht.2⟩
  · exact Post.bind Post.expect fun _ _ => Post.bind pOperand_post fun s _ => Post.bind Post.expect fun _ _ => Post.bind pType_post fun ct _ =>
      Post.bind Post.expect fun _ _ => Post.bind (Post.sepBy1 pMuxVar_post) fun vs hvs => Post.bind Post.expect fun _ _ => Post.bind Post.expect fun _ _ =>
      Post.bind pType_post fun t ht => Post.bind pNoDict_post fun _ _ => Post.bind resolve_post fun c hc => Post.bind resolveAll_post fun xs hxs =>
      Post.pure fun _ => ⟨(env_tys hc).2, hxs.2, fun he => hvs.1 (List.length_eq_zero_iff.mp (by rw [← hxs.1, he]; rfl)), ht⟩
  · exact Post.bind Post.expect fun _ _ => Post.bind pArg_post fun x hx => Post.bind Post.expect fun _ _ => Post.bind pIntAttr_post fun l hl =>
      Post.bind Post.expect fun _ _ => Post.bind pIntAttr_post fun r hr => Post.bind Post.expect fun _ _ => Post.bind Post.expect fun _ _ =>
      Post.bind pType_post fun t ht => Post.bind pNoDict_post fun _ _ => Post.pure fun _ => ⟨hx, hl, hr, ht⟩
  · exact Post.bind Post.expect fun _ _ => Post.bind pType_post fun t ht => Post.bind Post.expect fun _ _ => Post.bind Post.expect fun _ _ =>
      Post.bind pOperand_post fun s _ => Post.bind Post.expect fun _ _ => Post.bind (pWrapTy_post .scalar) fun mt hmt => Post.bind Post.expect fun _ _ =>
      Post.bind pNoDict_post fun _ _ => Post.bind resolve_post fun m hm => Post.pure fun _ => ⟨ht, by
        obtain ⟨x, rfl⟩ := hmt.2
        exact ⟨x, (env_tys hm).1⟩⟩
  · split
    · exact Post.bind pBracket_post fun a ha => Post.bind Post.expect fun _ _ => Post.bind pArg_post fun x hx => Post.bind Post.expect fun _ _ =>
        Post.bind Post.expect fun _ _ => Post.bind pType_post fun t ht => Post.bind (pLatDict_post hp ha) fun l hl => Post.pure fun h => ⟨h, hx, ht⟩
    · exact Post.bind pBracket_post fun a ha => Post.bind Post.expect fun _ _ => Post.bind pArg_post fun x hx => Post.bind Post.expect fun _ _ =>
        Post.bind pArg_post fun y hy => Post.bind Post.expect fun _ _ => Post.bind Post.expect fun _ _ => Post.bind pType_post fun t ht =>
        Post.bind (pLatDict_post hp ha) fun l hl => Post.pure fun h => ⟨h, hx, hy, ht⟩
    · exact Post.bind Post.expect fun _ _ => Post.bind pArg_post fun x hx => Post.bind Post.expect fun _ _ => Post.bind pArg_post fun y hy =>
        Post.bind Post.expect fun _ _ => Post.bind Post.expect fun _ _ => Post.bind pType_post fun t ht => Post.bind pNoDict_post fun _ _ =>
        Post.pure fun _ => ⟨hx, hy, ht⟩
    · exact Post.bind Post.expect fun _ _ => Post.bind pArg_post fun x hx => Post.bind Post.expect fun _ _ => Post.bind pIntAttr_post fun n hn =>
        Post.bind Post.expect fun _ _ => Post.bind Post.expect fun _ _ => Post.bind pType_post fun t ht => Post.bind pNoDict_post fun _ _ =>
        Post.pure fun _ => ⟨hx, hn, ht⟩
    · exact Post.fail

/-- Every accepted operation is well-formed where it stands. -/
def BlockOK' : List Ty → List Stmt → Prop
  | _, [] => True
  | tys, s :: l => StmtOK' tys s ∧ BlockOK' (tys ++ s.res.toList) l

omit hp in
theorem BlockOK'.ok : ∀ {l : List Stmt} {tys : List Ty}, BlockOK' tys l → (∀ s ∈ l, match s with
    | .sched1 _ l _ _ | .sched2 _ l _ _ _ => LatOK l
    | _ => True) → BlockOK tys l
  | [], _, _, _ => trivial
  | s :: _, _, h, hl => ⟨h.1 (hl s (by simp)), h.2.ok fun x hx => hl x (by simp [hx])⟩

theorem pBlockF_post : ∀ (n : Nat) (env : Env), Post (pBlockF pick n env) (BlockOK' (tysOf env))
  | 0, _ => Post.fail
  | n + 1, env => by
    intro ts a r hs h
    rw [pBlockF] at h
    dsimp only at h
    split at h
    · split at h
      · simp at h
      · split at h
        · next s r' ho =>
          obtain ⟨h1, h2⟩ := pOp_post hp _ _ _ hs.tail.tail.tail ho
          split at h
          · next t ht =>
            refine Post.use (p := do let l ← pBlockF pick n (env ++ [(_, t)]); return s :: l) (Q := BlockOK' (tysOf env))
              (Post.bind (pBlockF_post n _) fun l hl => Post.pure ⟨h2, ?_⟩) h1 h
            rw [ht]
            simpa [tysOf] using hl
          · simp at h
        · simp at h
    · split at h
      · next s r' ho =>
        obtain ⟨h1, h2⟩ := pOp_post hp _ _ _ hs.tail ho
        refine Post.use (p := do let l ← pBlockF pick n (env ++ s.res.toList.map fun t => ([], t)); return s :: l) (Q := BlockOK' (tysOf env))
          (Post.bind (pBlockF_post n _) fun l hl => Post.pure ⟨h2, ?_⟩) h1 h
        have e : tysOf (env ++ s.res.toList.map fun t => ([], t)) = tysOf env ++ s.res.toList := by
          cases s.res <;> simp [tysOf]
        rwa [e] at hl
      · simp at h
    · cases h; exact ⟨hs, trivial⟩
    · simp at h

/-- **C67.** Every accepted text (of bytes) with 32-bit latencies denotes a well-formed module: operands are defined before their uses, an offset has
the type of its operand, values fit in their types. -/
theorem parse_ok {cs : List Char} {f : File} (hb : Bytes cs) (h : parse pick cs = some f) (hl : LatsOK f) : FileOK f := by
  unfold parse at h
  split at h
  · next ts hts =>
    split at h
    · next g hg =>
      cases h
      have hs := lexAll_bytes hb hts
      have hk : ∀ k, Post (pKeyword k) fun _ => True := by
        intro k ts a r hs h
        unfold pKeyword at h
        split at h
        · split at h
          · cases h; exact ⟨hs.tail, trivial⟩
          · simp at h
        · simp at h
      have hblk : Post (pBlock pick) (BlockOK' []) := fun ts a r hs h => pBlockF_post hp _ [] ts a r hs h
      have key : Post (pFile pick) fun f => NameOK f.name ∧ BlockOK' [] f.body := by
        unfold pFile
        exact Post.bind (hk _) fun _ _ => Post.bind Post.expect fun _ _ => Post.bind (hk _) fun _ _ => Post.bind pStr_post fun nm hn =>
          Post.bind Post.expect fun _ _ => Post.bind hblk fun b hb => Post.bind Post.expect fun _ _ => Post.bind pNoDict_post fun _ _ =>
          Post.bind Post.expect fun _ _ => Post.pure ⟨hn, hb⟩
      obtain ⟨-, h1, h2⟩ := key _ _ _ hs hg
      exact ⟨h1, h2.ok hl⟩
    · simp at h
  · simp at h

/-- **C67.** Reading a text and printing it again does not change its meaning. -/
theorem parse_print_parse (hpa : ∀ a, pick a a = a) {cs : List Char} {f : File} (hb : Bytes cs) (h : parse pick cs = some f) (hl : LatsOK f) :
    parse pick (print f) = some f := print_parse hpa (parse_ok hp hb h hl)

end

end Verif.Text
