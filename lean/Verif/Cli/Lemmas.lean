import Verif.Cli.Model
import Verif.Cli.Spec
/-
What the parser does with one documented argument.
-/
namespace Verif.Cli
open Verif.Config Verif.Driver Spec

/-! ### Classes of arguments -/

theorem subNamed_dash {t : String} (h : t.toList.head? = some '-') : subNamed t = none := by
  unfold subNamed
  rw [if_neg, if_neg] <;> (rintro rfl; exact absurd h (by decide))

theorem validSub_none {t : String} (u : List App) (i : Bool) (h : subNamed t = none) : validSub u i t = none := by
  unfold validSub; rw [h]; rfl

theorem takeWhile_name {l r : List Char} (h : '=' ∉ l) : (l ++ '=' :: r).takeWhile (· != '=') = l := by
  rw [List.takeWhile_append_of_pos (p := (· != '=')) (fun x hx => bne_iff_ne.mpr fun e => h (e ▸ hx))]
  simp

theorem dropWhile_name {l r : List Char} (h : '=' ∉ l) : (l ++ '=' :: r).dropWhile (· != '=') = '=' :: r := by
  rw [List.dropWhile_append_of_pos (p := (· != '=')) (fun x hx => bne_iff_ne.mpr fun e => h (e ▸ hx))]
  simp

theorem takeWhile_all {l : List Char} (h : '=' ∉ l) : l.takeWhile (· != '=') = l := by
  have := List.takeWhile_append_of_pos (p := (· != '=')) (l₁ := l) (l₂ := []) (fun x hx => bne_iff_ne.mpr fun e => h (e ▸ hx))
  simpa using this

theorem dropWhile_all {l : List Char} (h : '=' ∉ l) : l.dropWhile (· != '=') = [] := by
  have := List.dropWhile_append_of_pos (p := (· != '=')) (l₁ := l) (l₂ := []) (fun x hx => bne_iff_ne.mpr fun e => h (e ▸ hx))
  simpa using this

/-- A name an option may have. -/
def NameOK (n : String) : Prop := ∃ c r, n.toList = c :: r ∧ validFirst c = true ∧ '=' ∉ c :: r

theorem recognize_long {n : String} (hn : NameOK n) (nm : Bool) (u : List App) (i : Bool) :
    recognize nm u i ("--" ++ n) = .long n.toList [] := by
  obtain ⟨c, r, e, hc, he⟩ := hn
  have ht : ("--" ++ n).toList = '-' :: '-' :: c :: r := by rw [String.toList_append, e]; rfl
  unfold recognize
  rw [if_neg (by intro h; rw [h] at ht; simp at ht), validSub_none _ _ (subNamed_dash (by rw [ht]; rfl))]
  unfold splitLong
  rw [ht]
  simp only [hc, if_true, takeWhile_all he, dropWhile_all he, e, List.tail_nil]

theorem recognize_longEq {n v : String} (hn : NameOK n) (nm : Bool) (u : List App) (i : Bool) :
    recognize nm u i ("--" ++ n ++ "=" ++ v) = .long n.toList v.toList := by
  obtain ⟨c, r, e, hc, he⟩ := hn
  have ht : ("--" ++ n ++ "=" ++ v).toList = '-' :: '-' :: c :: (r ++ '=' :: v.toList) := by
    simp only [String.toList_append, e]
    show ['-', '-'] ++ c :: r ++ ['='] ++ v.toList = _
    simp
  unfold recognize
  rw [if_neg (by intro h; rw [h] at ht; simp at ht), validSub_none _ _ (subNamed_dash (by rw [ht]; rfl))]
  unfold splitLong
  rw [ht]
  have h1 := takeWhile_name (r := v.toList) he
  have h2 := dropWhile_name (r := v.toList) he
  rw [List.cons_append] at h1 h2
  simp only [hc, if_true, h1, h2, e, List.tail_cons]

theorem recognize_shortFlag {c : Char} (hc : c.isAlpha = true) (nm : Bool) (u : List App) (i : Bool) :
    recognize nm u i (String.ofList ['-', c]) = .short c [] := by
  have hd : c ≠ '-' := by rintro rfl; exact absurd hc (by decide)
  have hv : validFirst c = true := by
    unfold validFirst
    have h1 : c ≠ '!' := by rintro rfl; exact absurd hc (by decide)
    have h2 : c ≠ ' ' := by rintro rfl; exact absurd hc (by decide)
    have h3 : c ≠ '\n' := by rintro rfl; exact absurd hc (by decide)
    simp [hd, h1, h2, h3]
  have ht : (String.ofList ['-', c]).toList = ['-', c] := by simp
  have hs : splitShort (String.ofList ['-', c]) = some (c, []) := by
    unfold splitShort; rw [ht]; simp [hv]
  have hl : splitLong (String.ofList ['-', c]) = none := by
    unfold splitLong
    rw [ht]
    split
    · rename_i h; simp at h
    · rfl
  unfold recognize
  rw [if_neg (by intro h; rw [h] at ht; simp at ht; exact hd ht.symm), validSub_none _ _ (subNamed_dash (by rw [ht]; rfl))]
  simp only [hl, hs]
  rw [if_neg]
  rintro ⟨h1, h2⟩
  have hx : c.toNat ≤ 57 := h2
  unfold Char.isAlpha Char.isUpper Char.isLower at hc
  simp only [Bool.or_eq_true, Bool.and_eq_true, decide_eq_true_eq, ge_iff_le, UInt32.le_iff_toNat_le] at hc
  have e : c.val.toNat = c.toNat := rfl
  rw [e] at hc
  have e1 : 'A'.val.toNat = 65 := rfl
  have e2 : 'a'.val.toNat = 97 := rfl
  omega

theorem recognize_plain {v : String} (h : Plain v) (nm : Bool) (u : List App) (i : Bool) : recognize nm u i v = .none := by
  obtain ⟨h0, h1, h2, h3, h4⟩ := h
  have hs : subNamed v = none := by unfold subNamed; rw [if_neg h2, if_neg h3]
  unfold recognize
  rw [if_neg (by rintro rfl; exact h1 (by decide)), validSub_none _ _ hs]
  have hl : splitLong v = none := by
    unfold splitLong
    split
    · rename_i e; rw [e] at h1; exact absurd rfl h1
    · rfl
  have hsh : splitShort v = none := by
    unfold splitShort
    split
    · rename_i e; rw [e] at h1; exact absurd rfl h1
    · rfl
  simp only [hl, hsh]
  rw [if_neg (fun h => h4 h.1)]

/-! ### One argument in `hls` or `sim` mode -/

/-- Arguments that end the previous option: the end of the line, or something that looks like an option. -/
def Ends (rest : List String) : Prop :=
  rest = [] ∨ ∃ t r, rest = t :: r ∧ t ≠ "--" ∧ ∀ nm u, recognize nm u false t ≠ .none

theorem Ends.dropMark {rest : List String} (h : Ends rest) : dropMark rest = rest := by
  rcases h with rfl | ⟨t, r, rfl, h, _⟩
  · rfl
  · unfold Cli.dropMark
    split
    · rename_i e
      simp only [List.cons.injEq] at e
      exact absurd e.1 h
    · rfl

theorem run_cons (s : St) (t : String) (rest : List String) : run s (t :: rest) = run (step s t rest).1 (step s t rest).2 := by
  rw [run]

theorem step_long {s : St} (hm : s.app ≠ .root) {t : String} {n v : List Char} (h : recognize true s.used true t = .long n v) (rest : List String) :
    step s t rest = parseLong s t n v rest := by
  unfold step
  cases ha : s.app with
  | root => exact absurd ha hm
  | hls => simp only [h]
  | sim => simp only [h]

theorem step_short {s : St} (hm : s.app ≠ .root) {t : String} {c : Char} {r : List Char} (h : recognize true s.used true t = .short c r)
    (rest : List String) : step s t rest = parseShort s t c r rest := by
  unfold step
  cases ha : s.app with
  | root => exact absurd ha hm
  | hls => simp only [h]
  | sim => simp only [h]

/-- An option with a value, in all ways of writing it. -/
theorem run_valued {s : St} (hm : s.app ≠ .root) {n : String} (hn : NameOK n) {o : Opt}
    (hf : ((longNames s.app).find? fun e => e.1.toList == n.toList).map Prod.snd = some o) (hflag : o.isFlag = false)
    {v : Option String} {l : List String} (hw : Valued n v l) {rest : List String} (hr : Ends rest) :
    run s (l ++ rest) = run (s.add o (v.getD o.defaultStr)) rest := by
  have hp : ∀ t val rest, parseLong s t n.toList val rest =
      if val ≠ [] then (s.add o (String.ofList val), rest) else takeValue s o rest := by
    intro t val rest
    unfold parseLong
    cases h : (longNames s.app).find? fun e => e.1.toList == n.toList with
    | none => rw [h] at hf; cases hf
    | some e =>
      rw [h] at hf
      obtain ⟨a, b⟩ := e
      simp only [Option.map_some, Option.some.injEq] at hf
      subst hf
      simp [hflag]
  cases hw with
  | bare =>
    rw [List.singleton_append, run_cons, step_long hm (recognize_long hn _ _ _), hp]
    simp only [ne_eq, not_true_eq_false, if_false, Option.getD_none]
    unfold takeValue
    rcases hr with rfl | ⟨t, r, rfl, ht, hx⟩
    · rfl
    · simp only [hx, if_false]
      rw [Ends.dropMark (.inr ⟨t, r, rfl, ht, hx⟩)]
  | next hv =>
    rw [List.cons_append, run_cons, step_long hm (recognize_long hn _ _ _), hp]
    simp only [ne_eq, not_true_eq_false, if_false, Option.getD_some, List.singleton_append]
    unfold takeValue
    simp only [recognize_plain hv, if_true]
    rw [hr.dropMark]
  | eq hv =>
    rename_i v
    rw [List.singleton_append, run_cons, step_long hm (recognize_longEq hn _ _ _), hp]
    have : v.toList ≠ [] := fun h => hv (by rw [← String.ofList_toList (s := v), h])
    simp only [this, ne_eq, not_false_eq_true, if_true, Option.getD_some, String.ofList_toList]

/-- What begins with an option ends the one before. -/
theorem ends_long {n : String} (hn : NameOK n) (r : List String) : Ends (("--" ++ n) :: r) := by
  refine .inr ⟨_, r, rfl, ?_, fun nm u => by rw [recognize_long hn]; simp⟩
  intro h
  have := recognize_long hn true [] true
  rw [h] at this
  simp [recognize] at this

theorem ends_longEq {n v : String} (hn : NameOK n) (r : List String) : Ends (("--" ++ n ++ "=" ++ v) :: r) := by
  refine .inr ⟨_, r, rfl, ?_, fun nm u => by rw [recognize_longEq hn]; simp⟩
  intro h
  have := recognize_longEq (v := v) hn true [] true
  rw [h] at this
  simp [recognize] at this

theorem ends_short {c : Char} (hc : c.isAlpha = true) (r : List String) : Ends (String.ofList ['-', c] :: r) := by
  refine .inr ⟨_, r, rfl, ?_, fun nm u => by rw [recognize_shortFlag hc]; simp⟩
  intro h
  have := recognize_shortFlag hc true [] true
  rw [h] at this
  simp [recognize] at this

/-- `++` as the value of an option in a group. -/
theorem run_plus {s : St} (hm : s.app ≠ .root) {n : String} (hn : NameOK n) {o : Opt}
    (hf : ((longNames s.app).find? fun e => e.1.toList == n.toList).map Prod.snd = some o) (hflag : o.isFlag = false) (hg : o.grouped = true)
    {rest : List String} (hr : Ends rest) : run s (["--" ++ n, "++"] ++ rest) = run (s.add o "++") rest := by
  have hrec : ∀ (u : List App) (i : Bool), recognize false u i "++" = .none := by
    intro u i
    have hs : subNamed "++" = none := by decide
    unfold recognize
    rw [if_neg (by decide), validSub_none _ _ hs]
    rfl
  rw [List.cons_append, run_cons, step_long hm (recognize_long hn _ _ _)]
  unfold parseLong
  cases h : (longNames s.app).find? fun e => e.1.toList == n.toList with
  | none => rw [h] at hf; cases hf
  | some e =>
    rw [h] at hf
    obtain ⟨a, b⟩ := e
    simp only [Option.map_some, Option.some.injEq] at hf
    subst hf
    simp only [hflag, ne_eq, not_true_eq_false, if_false, List.singleton_append, Bool.false_eq_true]
    unfold takeValue
    simp only [hg, Bool.not_true, hrec, if_true]
    rw [hr.dropMark]

theorem ends_valued {n : String} (hn : NameOK n) {v : Option String} {l : List String} (hw : Valued n v l) (r : List String) : Ends (l ++ r) := by
  cases hw with
  | bare => exact ends_long hn r
  | next _ => exact ends_long hn _
  | eq _ => exact ends_longEq hn r

end Verif.Cli
