import Verif.Vcd.Props
/-
C79, continued: reading the text back.
-/
namespace Verif.Vcd
open Verif.Dfcxx Verif.Driver Verif.Tpl

/-! ### Numbers -/

theorem dec_eq (n : Nat) : dec n = Nat.toDigits 10 n := by
  show (Nat.repr n).toList = _
  rw [Nat.repr_eq_ofList_toDigits, String.toList_ofList]

theorem dec_ne (n : Nat) : dec n ≠ [] := by rw [dec_eq]; exact Nat.toDigits_ne_nil

theorem dec_digit {n : Nat} {c : Char} (h : c ∈ dec n) : c.isDigit = true := by
  rw [dec_eq] at h
  exact Nat.isDigit_of_mem_toDigits (by omega) (by omega) h

theorem decimal_dec (n : Nat) : decimal? (dec n) = some n := by
  unfold decimal?
  rw [if_pos ⟨dec_ne n, List.all_eq_true.mpr fun c hc => dec_digit hc⟩, dec_eq]
  exact congrArg some (Nat.ofDigitChars_toDigits (by omega) (by omega))

/-! ### Words -/

/-- A word: not empty and without white space. -/
def Solid (w : List Char) : Prop := w ≠ [] ∧ ∀ c ∈ w, isBlank c = false

theorem digit_solid {c : Char} (h : c.isDigit = true) : isBlank c = false := by
  unfold isBlank
  simp only [Bool.or_eq_false_iff, decide_eq_false_iff_not]
  refine ⟨⟨⟨⟨⟨?_, ?_⟩, ?_⟩, ?_⟩, ?_⟩, ?_⟩ <;> rintro rfl <;> revert h <;> decide

theorem dec_solid (n : Nat) : Solid (dec n) := ⟨dec_ne n, fun _ h => digit_solid (dec_digit h)⟩

theorem Solid.append {a b : List Char} (ha : Solid a) (hb : Solid b) : Solid (a ++ b) :=
  ⟨by simp [ha.1], fun c hc => (List.mem_append.mp hc).elim (ha.2 c) (hb.2 c)⟩

theorem wordsFrom_solid {w : List Char} (h : ∀ c ∈ w, isBlank c = false) : ∀ (cur rest : List Char),
    wordsFrom cur (w ++ rest) = wordsFrom (w.reverse ++ cur) rest := by
  induction w with
  | nil => intro cur rest; rfl
  | cons c w ih =>
    intro cur rest
    rw [List.cons_append, wordsFrom, if_neg (by rw [h c (by simp)]; simp), ih (fun x hx => h x (by simp [hx]))]
    simp

theorem words_word {w : List Char} (h : Solid w) {b : Char} (hb : isBlank b = true) (rest : List Char) : words (w ++ b :: rest) = w :: words rest := by
  unfold words
  rw [wordsFrom_solid h.2, wordsFrom, if_pos hb, if_neg (by simp [h.1])]
  simp

/-- A text that ends with white space, or an empty one. -/
def Ends (t : List Char) : Prop := t = [] ∨ ∃ s b, isBlank b = true ∧ t = s ++ [b]

theorem wordsFrom_append {b : Char} (hb : isBlank b = true) (rest : List Char) : ∀ (s cur : List Char),
    wordsFrom cur (s ++ [b] ++ rest) = wordsFrom cur (s ++ [b]) ++ words rest := by
  intro s
  induction s with
  | nil => intro cur; by_cases h : cur = [] <;> simp [wordsFrom, hb, h, words]
  | cons c s ih =>
    intro cur
    simp only [List.cons_append, wordsFrom]
    split
    · split
      · exact ih _
      · rw [ih]; rfl
    · exact ih _

theorem words_append {t : List Char} (h : Ends t) (rest : List Char) : words (t ++ rest) = words t ++ words rest := by
  rcases h with rfl | ⟨s, b, hb, rfl⟩
  · rfl
  · exact wordsFrom_append hb rest s []

theorem Ends.append {a b : List Char} (ha : Ends a) (hb : Ends b) : Ends (a ++ b) := by
  rcases hb with rfl | ⟨s, c, hc, rfl⟩
  · simpa using ha
  · exact .inr ⟨a ++ s, c, hc, by simp⟩

theorem ends_snoc (s : List Char) {b : Char} (hb : isBlank b = true) : Ends (s ++ [b]) := .inr ⟨s, b, hb, rfl⟩

theorem words_flatMap {α : Type} {f : α → List Char} {l : List α} (h : ∀ a ∈ l, Ends (f a)) : Ends (l.flatMap f) ∧ words (l.flatMap f) = l.flatMap fun a => words (f a) := by
  induction l with
  | nil => exact ⟨.inl rfl, rfl⟩
  | cons a l ih =>
    obtain ⟨i1, i2⟩ := ih fun x hx => h x (by simp [hx])
    rw [List.flatMap_cons, List.flatMap_cons, words_append (h a (by simp)), i2]
    exact ⟨(h a (by simp)).append i1, rfl⟩

/-! ### Names -/

/-- A name that is an identifier code: printable ASCII characters, and not the word that ends a command. -/
def Named (s : String) : Prop := s ≠ "" ∧ (∀ c ∈ s.toList, '!' ≤ c ∧ c ≤ '~') ∧ s ≠ "$end"

theorem printable_solid {c : Char} (h : '!' ≤ c ∧ c ≤ '~') : isBlank c = false := by
  unfold isBlank
  simp only [Bool.or_eq_false_iff, decide_eq_false_iff_not]
  refine ⟨⟨⟨⟨⟨?_, ?_⟩, ?_⟩, ?_⟩, ?_⟩, ?_⟩ <;> rintro rfl <;> revert h <;> decide

theorem toList_ne {s : String} (h : s ≠ "") : s.toList ≠ [] := fun e => h (by rw [← String.ofList_toList (s := s), e])

theorem Named.solid {s : String} (h : Named s) : Solid s.toList := ⟨toList_ne h.1, fun c hc => printable_solid (h.2.1 c hc)⟩

theorem Named.idWord {s : String} (h : Named s) : idWord s.toList = true := by
  unfold Vcd.idWord
  rw [Bool.and_eq_true, List.all_eq_true]
  exact ⟨by simpa using toList_ne h.1, fun c hc => by simpa using h.2.1 c hc⟩

/-! ### The pieces -/

theorem lit_ends {t : List Char} (s : List Char) (b : Char) (hb : isBlank b = true) (h : t = s ++ [b]) : Ends t := .inr ⟨s, b, hb, h⟩

theorem varText_words {p : String × Nat} (h : Named p.1) :
    Ends (varText p) ∧ words (varText p) = ["$var".toList, "wire".toList, dec p.2, p.1.toList, p.1.toList, "$end".toList] := by
  refine ⟨lit_ends ("$var wire ".toList ++ dec p.2 ++ " ".toList ++ p.1.toList ++ " ".toList ++ p.1.toList ++ " $end".toList) '\n' rfl (by
    unfold varText; simp [List.append_assoc]), ?_⟩
  unfold varText
  simp only [List.append_assoc]
  rw [words_append (t := "$var wire ".toList) (lit_ends "$var wire".toList ' ' rfl rfl)]
  show _ ++ words (dec p.2 ++ ' ' :: (p.1.toList ++ ' ' :: (p.1.toList ++ ' ' :: "$end\n".toList))) = _
  rw [words_word (dec_solid _) rfl, words_word h.solid rfl, words_word h.solid rfl]
  rfl

theorem changeText_words {p : String × List Char} (h : Named p.1) (hv : ∀ c ∈ p.2, valueChar c = true) :
    Ends (changeText p) ∧ words (changeText p) = ['b' :: p.2, p.1.toList] := by
  refine ⟨lit_ends ("b".toList ++ p.2 ++ " ".toList ++ p.1.toList) '\n' rfl rfl, ?_⟩
  have hs : Solid ('b' :: p.2) := by
    refine ⟨by simp, fun c hc => ?_⟩
    rcases List.mem_cons.mp hc with rfl | hc
    · rfl
    · have := hv c hc
      unfold valueChar at this
      simp only [Bool.or_eq_true, decide_eq_true_eq] at this
      rcases this with ((rfl | rfl) | rfl) | rfl <;> rfl
  unfold changeText
  show words ('b' :: (p.2 ++ " ".toList ++ p.1.toList ++ "\n".toList)) = _
  have e : 'b' :: (p.2 ++ " ".toList ++ p.1.toList ++ "\n".toList) = ('b' :: p.2) ++ ' ' :: (p.1.toList ++ '\n' :: []) := by simp
  rw [e, words_word hs rfl, words_word h.solid rfl]
  rfl

theorem time_solid {n : Nat} : Solid ('#' :: dec n) := by
  refine ⟨by simp, fun c hc => ?_⟩
  rcases List.mem_cons.mp hc with rfl | hc
  · rfl
  · exact (dec_solid n).2 c hc

theorem tickText_words {r : TickRec} (h : ∀ p ∈ r.values, Named p.1 ∧ ∀ c ∈ p.2, valueChar c = true) :
    Ends (tickText r) ∧ words (tickText r) = ('#' :: dec r.tick) :: r.values.flatMap fun p => ['b' :: p.2, p.1.toList] := by
  obtain ⟨h1, h2⟩ := words_flatMap (f := changeText) (l := r.values) fun p hp => (changeText_words (h p hp).1 (h p hp).2).1
  refine ⟨lit_ends ("#".toList ++ dec r.tick ++ "\n".toList ++ r.values.flatMap changeText) '\n' rfl rfl, ?_⟩
  unfold tickText
  have e : "#".toList ++ dec r.tick ++ "\n".toList ++ r.values.flatMap changeText ++ "\n".toList =
      ('#' :: dec r.tick) ++ '\n' :: (r.values.flatMap changeText ++ ['\n']) := by simp
  rw [e, words_word time_solid rfl, words_append h1, h2]
  have : words ['\n'] = [] := rfl
  rw [this, List.append_nil]
  congr 1
  refine List.flatMap_congr fun p hp => (changeText_words (h p hp).1 (h p hp).2).2

/-- The words of the time stamp. -/
def stampWords (now : Clock) : List Word :=
  [dec now.day ++ "-".toList ++ dec now.month ++ "-".toList ++ dec now.year, dec now.hour ++ ":".toList ++ dec now.minute ++ ":".toList ++ dec now.second]

theorem stamp_words (now : Clock) (rest : List Char) : words (now.text ++ ' ' :: rest) = stampWords now ++ words rest := by
  have h1 : Solid "-".toList := ⟨by decide, by decide⟩
  have h2 : Solid ":".toList := ⟨by decide, by decide⟩
  have e : now.text ++ ' ' :: rest = (dec now.day ++ "-".toList ++ dec now.month ++ "-".toList ++ dec now.year) ++ ' ' ::
      ((dec now.hour ++ ":".toList ++ dec now.minute ++ ":".toList ++ dec now.second) ++ ' ' :: rest) := by
    unfold Clock.text
    have : " ".toList = [' '] := rfl
    rw [this]
    simp only [List.append_assoc, List.cons_append, List.nil_append]
  rw [e, words_word ((((dec_solid _).append h1).append (dec_solid _)).append h1 |>.append (dec_solid _)) rfl,
    words_word ((((dec_solid _).append h2).append (dec_solid _)).append h2 |>.append (dec_solid _)) rfl]
  rfl

theorem stampWords_ne {now : Clock} {x : Word} (h : x ∈ stampWords now) : x ≠ "$end".toList := by
  have key : ∀ (n : Nat) (r : List Char), dec n ++ r ≠ "$end".toList := by
    intro n r e
    cases hd : dec n with
    | nil => exact dec_ne n hd
    | cons c l =>
      rw [hd] at e
      have hc : c = '$' := by
        have := congrArg List.head? e
        simpa using this
      have := dec_digit (n := n) (c := c) (by rw [hd]; simp)
      rw [hc] at this
      revert this; decide
  unfold stampWords at h
  simp only [List.mem_cons, List.not_mem_nil, or_false] at h
  rcases h with rfl | rfl <;> · simp only [List.append_assoc]; exact key _ _

/-! ### Commands and events -/

theorem commands_args (c : List Word) (args ws : List Word) (h : ∀ a ∈ args, a ≠ "$end".toList) :
    commands (some c) (args ++ ws) = commands (some (args.reverse ++ c)) ws := by
  induction args generalizing c with
  | nil => rfl
  | cons a args ih =>
    rw [List.cons_append, commands, if_neg (h a (by simp)), ih _ fun x hx => h x (by simp [hx])]
    simp

theorem commands_cmd {cmd : Word} {args ws : List Word} (hc : cmd.head? = some '$') (he : cmd ≠ "$enddefinitions".toList)
    (h : ∀ a ∈ args, a ≠ "$end".toList) :
    commands none (cmd :: (args ++ "$end".toList :: ws)) = (commands none ws).map fun p => ((cmd :: args) :: p.1, p.2) := by
  rw [commands, if_pos hc, commands_args _ _ _ h, commands, if_pos rfl, if_neg]
  · simp
  · intro e
    have := congrArg List.getLast? e
    rw [List.getLast?_append] at this
    simp only [List.getLast?_singleton, Option.or_some, Option.some.injEq, Option.some_or] at this
    exact he this

theorem commands_vars {vs : List (String × Nat)} (h : ∀ p ∈ vs, Named p.1) (ws : List Word) :
    commands none ((vs.flatMap fun p => ["$var".toList, "wire".toList, dec p.2, p.1.toList, p.1.toList, "$end".toList]) ++ ws) =
      (commands none ws).map fun q => ((vs.map fun p => ["$var".toList, "wire".toList, dec p.2, p.1.toList, p.1.toList]) ++ q.1, q.2) := by
  induction vs with
  | nil => simp
  | cons p vs ih =>
    have hp := h p (by simp)
    have ne : ∀ n, dec n ≠ "$end".toList := by
      intro n e
      have := dec_digit (n := n) (c := '$') (by rw [e]; decide)
      revert this; decide
    have nn : p.1.toList ≠ "$end".toList := fun e => hp.2.2 (by rw [← String.ofList_toList (s := p.1), e, String.ofList_toList])
    rw [List.flatMap_cons]
    show commands none ("$var".toList :: (["wire".toList, dec p.2, p.1.toList, p.1.toList] ++ "$end".toList :: ((vs.flatMap fun p =>
      ["$var".toList, "wire".toList, dec p.2, p.1.toList, p.1.toList, "$end".toList]) ++ ws))) = _
    rw [commands_cmd (by decide) (by decide), ih fun x hx => h x (by simp [hx])]
    · cases commands none ws <;> simp
    · intro a ha
      simp only [List.mem_cons, List.not_mem_nil, or_false] at ha
      rcases ha with rfl | rfl | rfl | rfl
      · decide
      · exact ne _
      · exact nn
      · exact nn

theorem decls_append (a b : List (List Word)) (da db : List Decl) (ha : decls? a = some da) (hb : decls? b = some db) : decls? (a ++ b) = some (da ++ db) := by
  induction a generalizing da with
  | nil => simp only [decls?, Option.some.injEq] at ha; subst ha; simpa using hb
  | cons c cs ih =>
    simp only [List.cons_append, decls?] at ha ⊢
    cases h1 : decl? c with
    | none => rw [h1] at ha; simp at ha
    | some x =>
      cases h2 : decls? cs with
      | none => rw [h1, h2] at ha; simp at ha
      | some y =>
        rw [h1, h2] at ha
        simp only [Option.some.injEq] at ha
        rw [ih y h2]
        simp [← ha]

theorem decls_vars {vs : List (String × Nat)} (h : ∀ p ∈ vs, Named p.1) :
    decls? (vs.map fun p => ["$var".toList, "wire".toList, dec p.2, p.1.toList, p.1.toList]) = some (vs.map fun p => ⟨p.2, p.1.toList, p.1.toList⟩) := by
  induction vs with
  | nil => rfl
  | cons p vs ih =>
    simp only [List.map_cons, decls?, decl?, if_true, (h p (by simp)).idWord, decimal_dec, Option.map_some, ih fun x hx => h x (by simp [hx]),
      List.singleton_append]

theorem not_keyword {w : Word} (h : w.head? ≠ some '$') : keywords.contains w = false := by
  rw [Bool.eq_false_iff]
  intro hc
  rw [List.contains_iff_mem] at hc
  have : ∀ k ∈ keywords, k.head? = some '$' := by decide
  exact h (this w hc)

theorem events_keyword {w : Word} {ws : List Word} (h : w = "$dumpvars".toList ∨ w = "$end".toList) : events none (w :: ws) = events none ws := by
  have : meaning w = some .nothing := by rcases h with rfl | rfl <;> rfl
  rw [events, this]

theorem events_change {value id : Word} {ws : List Word} (hv : ∀ c ∈ value, valueChar c = true) :
    events none (('b' :: value) :: id :: ws) = (events none ws).map fun es => .change id value :: es := by
  have : meaning ('b' :: value) = some (.vector value) := by
    unfold meaning
    rw [not_keyword (by simp)]
    have e : ¬'b' = '#' := by decide
    simp only [Bool.false_eq_true, if_false, if_neg e, if_true, List.all_eq_true.mpr hv]
  rw [events, this]
  simp only
  rw [events]

theorem events_changes {vs : List (String × List Char)} (h : ∀ p ∈ vs, ∀ c ∈ p.2, valueChar c = true) (ws : List Word) :
    events none ((vs.flatMap fun p => ['b' :: p.2, p.1.toList]) ++ ws) = (events none ws).map fun es => (vs.map fun p => Event.change p.1.toList p.2) ++ es := by
  induction vs with
  | nil => simp
  | cons p vs ih =>
    rw [List.flatMap_cons]
    show events none (('b' :: p.2) :: p.1.toList :: ((vs.flatMap fun p => ['b' :: p.2, p.1.toList]) ++ ws)) = _
    rw [events_change (h p (by simp)), ih fun x hx => h x (by simp [hx])]
    cases events none ws <;> simp

theorem events_time {n : Nat} {ws : List Word} : events none (('#' :: dec n) :: ws) = (events none ws).map fun es => .time n :: es := by
  have : meaning ('#' :: dec n) = some (.time n) := by
    unfold meaning
    rw [not_keyword (by simp)]
    simp only [Bool.false_eq_true, if_false, if_true, decimal_dec, Option.map_some]
  rw [events, this]

/-- The events of one tick. -/
def tickEvents (r : TickRec) : List Event := .time r.tick :: r.values.map fun p => .change p.1.toList p.2

theorem events_ticks {ts : List TickRec} (h : ∀ r ∈ ts, ∀ p ∈ r.values, ∀ c ∈ p.2, valueChar c = true) (ws : List Word) :
    events none ((ts.flatMap fun r => ('#' :: dec r.tick) :: r.values.flatMap fun p => ['b' :: p.2, p.1.toList]) ++ ws) =
      (events none ws).map fun es => ts.flatMap tickEvents ++ es := by
  induction ts with
  | nil => simp
  | cons r ts ih =>
    rw [List.flatMap_cons, List.cons_append, List.cons_append, events_time, List.append_assoc, events_changes (h r (by simp)), ih fun x hx => h x (by simp [hx])]
    cases events none ws <;> simp [tickEvents]

/-! ### The whole text -/

/-- What can be dumped: every name is an identifier code, and values are binary. -/
structure Dumpable (v : Dfcxx.Vcd) : Prop where
  vars : ∀ p ∈ v.vars, Named p.1
  values : ∀ r ∈ v.ticks, ∀ p ∈ r.values, Named p.1 ∧ ∀ c ∈ p.2, c = '0' ∨ c = '1'

/-- **C79, the text.**  A reader of value change dumps gets from the text: every variable with its width, under its name; first an unknown value for each
of them; then, tick by tick, the time and the values recorded; and the final time. -/
theorem read_text (now : Clock) {v : Dfcxx.Vcd} (h : Dumpable v) : read (text now v) = some
    ⟨v.vars.map fun p => ⟨p.2, p.1.toList, p.1.toList⟩,
     (v.vars.map fun p => .change p.1.toList (List.replicate p.2 'x')) ++ v.ticks.flatMap tickEvents ++ [.time v.final]⟩ := by
  have hvv : ∀ r ∈ v.ticks, ∀ p ∈ r.values, Named p.1 ∧ ∀ c ∈ p.2, valueChar c = true := fun r hr p hp =>
    ⟨(h.values r hr p hp).1, fun c hc => by rcases (h.values r hr p hp).2 c hc with rfl | rfl <;> rfl⟩
  have hii : ∀ p ∈ v.vars.map initOf, Named p.1 ∧ ∀ c ∈ p.2, valueChar c = true := by
    intro p hp
    obtain ⟨q, hq, rfl⟩ := List.mem_map.mp hp
    exact ⟨h.vars q hq, fun c hc => by rw [List.eq_of_mem_replicate hc]; rfl⟩
  obtain ⟨v1, v2⟩ := words_flatMap (f := varText) (l := v.vars) fun p hp => (varText_words (h.vars p hp)).1
  obtain ⟨i1, i2⟩ := words_flatMap (f := changeText) (l := v.vars.map initOf) fun p hp => (changeText_words (hii p hp).1 (hii p hp).2).1
  obtain ⟨t1, t2⟩ := words_flatMap (f := tickText) (l := v.ticks) fun r hr => (tickText_words (hvv r hr)).1
  rw [List.flatMap_congr fun p hp => (varText_words (h.vars p hp)).2] at v2
  rw [List.flatMap_congr fun p hp => (changeText_words (hii p hp).1 (hii p hp).2).2] at i2
  rw [List.flatMap_congr fun r hr => (tickText_words (hvv r hr)).2] at t2
  have hst : ∀ rest, words ((if v.ticks = [] then [] else now.text) ++ ' ' :: rest) = (if v.ticks = [] then [] else stampWords now) ++ words rest := by
    intro rest
    split
    · rfl
    · exact stamp_words now rest
  have hw : words (text now v) = "$date".toList :: ((if v.ticks = [] then [] else stampWords now) ++ "$end".toList ::
      ("$version".toList :: (["Utopia".toList, "HLS".toList] ++ "$end".toList :: ("$timescale".toList :: (["1ps".toList] ++ "$end".toList ::
        ("$scope".toList :: (["module".toList, "logic".toList] ++ "$end".toList ::
      ((v.vars.flatMap fun p => ["$var".toList, "wire".toList, dec p.2, p.1.toList, p.1.toList, "$end".toList]) ++
        ("$upscope".toList :: ([] ++ "$end".toList :: "$enddefinitions".toList :: "$end".toList :: "$dumpvars".toList ::
          (((v.vars.map initOf).flatMap fun p => ['b' :: p.2, p.1.toList]) ++ ("$end".toList ::
            ((v.ticks.flatMap fun r => ('#' :: dec r.tick) :: r.values.flatMap fun p => ['b' :: p.2, p.1.toList]) ++ [('#' :: dec v.final)]))))))))))))) := by
    rw [text_eq]
    simp only [List.append_assoc]
    rw [words_append (t := "$date ".toList) (lit_ends "$date".toList ' ' rfl rfl)]
    have e : ∀ r, " $end\n$version Utopia HLS $end\n$timescale 1ps $end\n\n$scope module logic $end\n".toList ++ r =
      ' ' :: ("$end\n$version Utopia HLS $end\n$timescale 1ps $end\n\n$scope module logic $end\n".toList ++ r) := fun r => rfl
    rw [e, hst, words_append (t := "$end\n$version Utopia HLS $end\n$timescale 1ps $end\n\n$scope module logic $end\n".toList)
      (lit_ends "$end\n$version Utopia HLS $end\n$timescale 1ps $end\n\n$scope module logic $end".toList '\n' rfl rfl), words_append v1, v2,
      words_append (t := "$upscope $end\n$enddefinitions $end\n\n$dumpvars\n".toList)
        (lit_ends "$upscope $end\n$enddefinitions $end\n\n$dumpvars".toList '\n' rfl rfl), words_append i1, i2,
      words_append (t := "$end\n\n".toList) (lit_ends "$end\n".toList '\n' rfl rfl), words_append t1, t2]
    have hf : words ("#".toList ++ (dec v.final ++ "\n".toList)) = ['#' :: dec v.final] := words_word (time_solid (n := v.final)) rfl []
    rw [hf]
    rfl
  have hstne : ∀ a ∈ (if v.ticks = [] then [] else stampWords now), a ≠ "$end".toList := by
    intro a ha
    split at ha
    · cases ha
    · exact stampWords_ne ha
  unfold read
  rw [hw, commands_cmd (by decide) (by decide) hstne, commands_cmd (by decide) (by decide) (by decide), commands_cmd (by decide) (by decide) (by decide),
    commands_cmd (by decide) (by decide) (by decide), commands_vars h.vars, commands_cmd (by decide) (by decide) (by decide)]
  have hend : ∀ ws, commands none ("$enddefinitions".toList :: "$end".toList :: ws) = some ([], ws) := by
    intro ws
    rw [commands, if_pos (by decide), commands, if_pos rfl, if_pos rfl]
  rw [hend]
  simp only [Option.map_some]
  rw [events_keyword (.inl rfl), events_changes fun p hp => (hii p hp).2, events_keyword (.inr rfl), events_ticks fun r hr p hp => (hvv r hr p hp).2,
    events_time]
  have hd : decls? (("$date".toList :: (if v.ticks = [] then [] else stampWords now)) :: ("$version".toList :: ["Utopia".toList, "HLS".toList]) ::
      ("$timescale".toList :: ["1ps".toList]) :: ("$scope".toList :: ["module".toList, "logic".toList]) ::
      ((v.vars.map fun p => ["$var".toList, "wire".toList, dec p.2, p.1.toList, p.1.toList]) ++ [["$upscope".toList]])) =
      some (v.vars.map fun p => ⟨p.2, p.1.toList, p.1.toList⟩) := by
    have k := decls_append _ [["$upscope".toList]] _ [] (decls_vars h.vars) rfl
    rw [List.append_nil] at k
    have skip : ∀ (c : Word) (a : List Word) (cs : List (List Word)), c ≠ "$var".toList → decls? ((c :: a) :: cs) = decls? cs := by
      intro c a cs hc
      simp only [decls?, decl?, if_neg hc]
      cases decls? cs <;> rfl
    rw [skip _ _ _ (by decide), skip _ _ _ (by decide), skip _ _ _ (by decide), skip _ _ _ (by decide)]
    exact k
  rw [hd]
  simp [events, initOf, Function.comp_def]

end Verif.Vcd
