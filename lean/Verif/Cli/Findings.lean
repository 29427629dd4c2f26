import Verif.Cli.Modes
/-
C76: where the command line is not understood as documented.
-/
namespace Verif.Cli
open Verif.Config Verif.Driver Spec

/-- What is true of C76: lines made of written options that are not documented are refused, where numbers of stages are decimal or no numbers at all.
Missing (false of the program, below): numbers below zero or too big, values that are names of modes, lines without a mode or with both, and lines that
begin with the mark `--`. -/
theorem misread_refused_partial (b : String → Option Bool) (cfg : SimConfig) {is : List Item} {ls : List String} (hw : WritesAll is ls)
    (hn : ∀ v, Item.pipeline (some v) ∈ is → (∃ n, Decimal v n) ∨ NotNumber v) (hh : .help ∉ is) :
    commandLine b cfg ("hls" :: ls) = .stop .error ∨
      ∃ config o, commandLine b cfg ("hls" :: ls) = .hls config o ∧ Valid Decimal is ∧ Means Decimal is config o := by
  by_cases hv : Valid Decimal is
  · obtain ⟨c, o, h1, h2⟩ := documented_runs b cfg hw hv hh
    exact .inr ⟨c, o, h1, hv, h2⟩
  · exact .inl (undocumented_refused b cfg hw hn hv hh)

/-! ### Numbers of stages -/

/-- A negative number, and what it is taken for. -/
def Negative (v : String) (n : Nat) : Prop := ∃ k, 0 < k ∧ k < 2 ^ 64 ∧ v = "-" ++ Nat.repr k ∧ n = 2 ^ 64 - k

/-- A number that is too big, and what it is taken for. -/
def TooBig (v : String) (n : Nat) : Prop := ∃ k, 2 ^ 64 ≤ k ∧ v = Nat.repr k ∧ n = 2 ^ 64 - 1

/-- A number written with a zero in front is read to the base 8. -/
def Octal (v : String) (n : Nat) : Prop := v = String.ofList ('0' :: Nat.toDigits 8 n) ∧ n < 2 ^ 64

theorem repr_toList (n : Nat) : (Nat.repr n).toList = Nat.toDigits 10 n := by rw [Nat.repr_eq_ofList_toDigits, String.toList_ofList]

theorem prefixed_toDigits {k : Nat} (h : 0 < k) : prefixed (Nat.toDigits 10 k) = some k := by
  obtain ⟨c, r, e, hc⟩ := toDigits_head h
  rw [e, prefixed_plain hc, ← e, digits_toDigits]

theorem stagesOf_negative {v : String} {n : Nat} (h : Negative v n) : stagesOf v = some n := by
  obtain ⟨k, h0, h1, rfl, rfl⟩ := h
  have ht : ("-" ++ Nat.repr k).toList = '-' :: Nat.toDigits 10 k := by rw [String.toList_append, repr_toList]; rfl
  unfold stagesOf
  rw [if_neg (ne_empty ht), ht]
  unfold strtoull
  rw [List.dropWhile_cons, if_neg (by decide)]
  simp only [prefixed_toDigits h0, Option.map_some, h1, if_true, Option.some.injEq]
  omega

theorem stagesOf_tooBig {v : String} {n : Nat} (h : TooBig v n) : stagesOf v = some n := by
  obtain ⟨k, h1, rfl, rfl⟩ := h
  have ht := repr_toList k
  have h0 : 0 < k := by omega
  obtain ⟨c, r, e, hc⟩ := toDigits_head h0
  rw [e] at ht
  have hd : c.isDigit = true := isDigit_of_digits (digits_toDigits k) c (by rw [e]; simp)
  obtain ⟨g1, g2, g3⟩ := digit_not hd
  unfold stagesOf
  rw [if_neg (ne_empty ht), ht, strtoull_plain g1 g2 g3, prefixed_plain hc, ← e, digits_toDigits]
  simp only [Option.map_some, Option.some.injEq]
  omega

theorem digits_octal (n : Nat) : digits 8 0 (Nat.toDigits 8 n) = some n := by
  induction n using Nat.strongRecOn with
  | _ n ih =>
    by_cases h : n < 8
    · rw [Nat.toDigits_of_lt_base h]
      simp [digits, digit_digitChar (n := n) (by omega), h]
    · have hm : n % 8 < 8 := Nat.mod_lt _ (by omega)
      rw [Nat.toDigits_of_base_le (by omega) (by omega), digits_append, ih (n / 8) (by omega)]
      simp only [Option.bind_some, digits, digit_digitChar (n := n % 8) (by omega), hm, if_true]
      congr 1
      omega

theorem digit_letter {x : Char} (h : x = 'x' ∨ x = 'X') : digits 8 0 [x] = none := by
  rcases h with rfl | rfl <;> decide

theorem prefixed_octal (n : Nat) : prefixed ('0' :: Nat.toDigits 8 n) = some n := by
  have hd := digits_octal n
  match hl : Nat.toDigits 8 n with
  | [] => exact absurd hl Nat.toDigits_ne_nil
  | [x] => rw [hl] at hd; exact hd
  | x :: c :: r =>
    rw [hl] at hd
    show (if ((x == 'x' || x == 'X') && (digits 16 0 [c]).isSome) = true then digits 16 0 (c :: r) else digits 8 0 (x :: c :: r)) = _
    rw [if_neg]
    · exact hd
    · rw [Bool.and_eq_true, not_and_or]
      left
      intro hx
      have hx' : x = 'x' ∨ x = 'X' := by simpa using hx
      have : digits 8 0 ([x] ++ c :: r) = none := by rw [digits_append, digit_letter hx']; rfl
      rw [List.singleton_append, hd] at this
      cases this

theorem stagesOf_octal {v : String} {n : Nat} (h : Octal v n) : stagesOf v = some n := by
  obtain ⟨rfl, hn⟩ := h
  have ht : (String.ofList ('0' :: Nat.toDigits 8 n)).toList = '0' :: Nat.toDigits 8 n := String.toList_ofList
  unfold stagesOf
  rw [if_neg (ne_empty ht), ht, strtoull_plain (by decide) (by decide) (by decide), prefixed_octal]
  simp only [Option.map_some, Option.some.injEq]
  omega

/-- A number of stages below zero is accepted: `-k` asks for 2^64 - k stages. -/
theorem negative_stages_accepted (b : String → Option Bool) (cfg : SimConfig) {is : List Item} {ls : List String} (hw : WritesAll is ls)
    (hv : Valid Negative is) (hh : .help ∉ is) :
    ∃ config o, commandLine b cfg ("hls" :: ls) = .hls config o ∧ Means Negative is config o :=
  runs_as_meant (fun _ _ => stagesOf_negative) b cfg hw hv hh

/-- A number of stages that does not fit is accepted: 2^64 - 1 is taken instead. -/
theorem tooBig_stages_accepted (b : String → Option Bool) (cfg : SimConfig) {is : List Item} {ls : List String} (hw : WritesAll is ls)
    (hv : Valid TooBig is) (hh : .help ∉ is) :
    ∃ config o, commandLine b cfg ("hls" :: ls) = .hls config o ∧ Means TooBig is config o :=
  runs_as_meant (fun _ _ => stagesOf_tooBig) b cfg hw hv hh

/-- Numbers with zeros in front are octal. -/
theorem octal_stages (b : String → Option Bool) (cfg : SimConfig) {is : List Item} {ls : List String} (hw : WritesAll is ls)
    (hv : Valid Octal is) (hh : .help ∉ is) :
    ∃ config o, commandLine b cfg ("hls" :: ls) = .hls config o ∧ Means Octal is config o :=
  runs_as_meant (fun _ _ => stagesOf_octal) b cfg hw hv hh

/-! ### Values that are not taken -/

/-- The state in `hls` mode before any option. -/
abbrev start : St := ⟨.hls, false, [.hls], [.hls], [], []⟩

theorem run_start (ls : List String) : run .init ("hls" :: ls) = run start ls := by
  rw [run_cons]
  have : step .init "hls" ls = (start, ls) := by
    have hr : recognize false [] true "hls" = .sub .hls := by decide
    unfold step
    simp only [St.init, Bool.false_eq_true, if_false, hr]
    rfl
  rw [this]

/-- A file called like a mode cannot be named: the option gets its default path, and no error is reported. -/
theorem mode_name_not_taken (b : String → Option Bool) (cfg : SimConfig) {f : Format} (hf : f ≠ .COUNT) {m : String} (hm : m = "hls" ∨ m = "sim") :
    commandLine b cfg ["hls", "--" ++ outName f, m] =
      .hls "" ⟨.combPipelining, 0, formats.map fun g => if g = f then outDefault f else ""⟩ := by
  unfold commandLine
  rw [run_start, run_cons]
  rcases hm with rfl | rfl
  · have e1 : step start ("--" ++ outName f) ["hls"] = (start.add (.out f) (outDefault f), ["hls"]) := by
      cases f <;> first | exact absurd rfl hf | decide
    have e2 : step (start.add (.out f) (outDefault f)) "hls" [] = ({ start.add (.out f) (outDefault f) with app := .root }, ["hls"]) := rfl
    have e3 : step { start.add (.out f) (outDefault f) with app := .root } "hls" [] = (start.add (.out f) (outDefault f), []) := rfl
    rw [e1, run_cons, e2, run_cons, e3, run]
    cases f <;> first | exact absurd rfl hf | rfl
  · have e1 : step start ("--" ++ outName f) ["sim"] = (start.add (.out f) (outDefault f), ["sim"]) := by
      cases f <;> first | exact absurd rfl hf | decide
    have e2 : step (start.add (.out f) (outDefault f)) "sim" [] = ({ start.add (.out f) (outDefault f) with app := .root }, ["sim"]) := rfl
    have e3 : step { start.add (.out f) (outDefault f) with app := .root } "sim" [] =
        (⟨.sim, false, [.hls, .sim], [.hls, .sim], [(.out f, outDefault f)], []⟩, []) := rfl
    rw [e1, run_cons, e2, run_cons, e3, run]
    cases f <;> first | exact absurd rfl hf | rfl

/-- An empty path passes for an output: `hls` runs with nothing to write. -/
theorem empty_path_accepted (b : String → Option Bool) (cfg : SimConfig) {f : Format} (hf : f ≠ .COUNT) :
    commandLine b cfg ["hls", "--" ++ outName f, ""] = .hls "" ⟨.combPipelining, 0, List.replicate 6 ""⟩ := by
  unfold commandLine
  rw [run_start, run_cons]
  have e1 : step start ("--" ++ outName f) [""] = (start.add (.out f) "", []) := by
    cases f <;> first | exact absurd rfl hf | decide
  rw [e1, run]
  cases f <;> first | exact absurd rfl hf | rfl

/-! ### Modes -/

/-- No mode is needed: without arguments the kernel is simulated. -/
theorem no_mode_simulates (b : String → Option Bool) (cfg : SimConfig) :
    commandLine b cfg [] = .sim (cfg.inp.getD "") (cfg.out.getD "") := by
  unfold commandLine
  rw [run]
  rfl

theorem ends_mode (rest : List String) : Ends ("sim" :: rest) := by
  refine .inr ⟨_, _, rfl, by decide, fun nm u => ?_⟩
  have : recognize nm u false "sim" = .sub .sim := rfl
  rw [this]
  simp

/-- The state after a line in `hls` mode with a line in `sim` mode behind it. -/
def bothFinal (is : List Item) (js : List SimItem) : St :=
  ⟨.sim, false, [.hls, .sim], [.hls, .sim], is.filterMap entry ++ js.map simEntry, is.filterMap unwanted⟩

theorem both_results {is : List Item} {js : List SimItem} {o : Opt} (h1 : o ≠ .simIn) (h2 : o ≠ .simOut) :
    (bothFinal is js).results o = (final is).results o := by
  have := results_simNone js h1 h2
  unfold St.results at *
  unfold bothFinal final
  unfold simFinal at this
  rw [List.filter_append, List.map_append, this, List.append_nil]

theorem both_simIn {is : List Item} {js : List SimItem} : (bothFinal is js).results .simIn = (simFinal js).results .simIn := by
  have := no_other (is := is) (o := .simIn) (by simp)
  unfold St.results at *
  unfold bothFinal simFinal
  unfold final at this
  rw [List.filter_append, List.map_append, this, List.nil_append]

theorem both_simOut {is : List Item} {js : List SimItem} : (bothFinal is js).results .simOut = (simFinal js).results .simOut := by
  have := no_other (is := is) (o := .simOut) (by simp)
  unfold St.results at *
  unfold bothFinal simFinal
  unfold final at this
  rw [List.filter_append, List.map_append, this, List.nil_append]

/-- Asking for both modes: `sim` and its arguments are ignored, without an error. -/
theorem second_mode_ignored (b : String → Option Bool) (cfg : SimConfig) {is : List Item} {ls : List String} (hw : WritesAll is ls)
    {js : List SimItem} {ls' : List String} (hw' : WritesSim js ls') (h1 : (inputs js).length ≤ 1) (h2 : (outputs js).length ≤ 1) :
    commandLine b cfg ("hls" :: (ls ++ "sim" :: ls')) = commandLine b cfg ("hls" :: ls) := by
  unfold commandLine
  rw [run_hls hw, run_start, run_items_then hw (ends_mode _) rfl]
  have e1 : run ⟨.hls, false, [.hls], [.hls], is.filterMap entry, is.filterMap unwanted⟩ ("sim" :: ls') = bothFinal is js := by
    rw [run_cons]
    have s1 : step ⟨.hls, false, [.hls], [.hls], is.filterMap entry, is.filterMap unwanted⟩ "sim" ls' =
      (⟨.root, false, [.hls], [.hls], is.filterMap entry, is.filterMap unwanted⟩, "sim" :: ls') := rfl
    rw [s1, run_cons]
    have s2 : step ⟨.root, false, [.hls], [.hls], is.filterMap entry, is.filterMap unwanted⟩ "sim" ls' =
      (⟨.sim, false, [.hls, .sim], [.hls, .sim], is.filterMap entry, is.filterMap unwanted⟩, ls') := rfl
    rw [s2, run_sim_items hw' rfl]
    rfl
  simp only [List.nil_append]
  rw [e1]
  have hr : ∀ {o : Opt}, o ≠ .simIn → o ≠ .simOut → (bothFinal is js).results o = (final is).results o := both_results
  have hver : versionStop b (bothFinal is js) = versionStop b (final is) := by
    unfold versionStop; rw [hr (o := .version) nofun nofun]
  have hbad : badValues (bothFinal is js) = badValues (final is) := by
    unfold badValues
    simp only [List.any_cons, List.any_nil, hr (o := .config) nofun nofun, hr (o := .pipeline) nofun nofun,
      fun f => hr (o := .out f) nofun nofun, both_simIn, both_simOut, results_simIn, results_simOut, List.length_map,
      no_other (is := is) (o := .simIn) (by simp), no_other (is := is) (o := .simOut) (by simp), List.length_nil]
    have g1 : decide (1 < (inputs js).length) = false := by simp; omega
    have g2 : decide (1 < (outputs js).length) = false := by simp; omega
    rw [g1, g2]
    rfl
  have hhelp : wantsHelp (bothFinal is js) = wantsHelp (final is) := by
    unfold wantsHelp
    have l1 : (bothFinal is js).listed = [.hls, .sim] := rfl
    have l2 : (final is).listed = [.hls] := rfl
    have hs : (final is).results (.help .sim) = [] := by
      apply results_nil
      intro i _ x he
      cases i <;> simp [entry] at he
    rw [l1, l2]
    simp [hr (o := .help .root) nofun nofun, hr (o := .helpAll) nofun nofun, hr (o := .help .hls) nofun nofun, hr (o := .help .sim) nofun nofun, hs,
      no_other (is := is) (o := .help .root) (by simp), no_other (is := is) (o := .helpAll) (by simp)]
  have hreq : badRequirements (bothFinal is js) = badRequirements (final is) := by
    unfold badRequirements
    have u1 : (bothFinal is js).used.contains .hls = true := rfl
    have u2 : (final is).used.contains .hls = true := rfl
    rw [u1, u2]
    simp only [List.filter_cons, List.filter_nil, hr (o := .asap) nofun nofun, hr (o := .linear) nofun nofun, hr (o := .pipeline) nofun nofun,
      fun f => hr (o := .out f) nofun nofun]
  have hsch : schedulerOf (bothFinal is js) = schedulerOf (final is) := by
    unfold schedulerOf
    have u1 : (bothFinal is js).listed.contains .hls = true := rfl
    have u2 : (final is).listed.contains .hls = true := rfl
    rw [u1, u2, hr (o := .asap) nofun nofun, hr (o := .linear) nofun nofun, hr (o := .pipeline) nofun nofun]
  have hval : ∀ {o : Opt}, o ≠ .simIn → o ≠ .simOut → ∀ x, (bothFinal is js).value o x = (final is).value o x := by
    intro o g1 g2 x
    unfold St.value
    rw [hr g1 g2]
  have hmis : (bothFinal is js).missing = (final is).missing := rfl
  have hused : (bothFinal is js).used.contains .hls = (final is).used.contains .hls := rfl
  have hx : (final is).used.contains .hls = true := rfl
  unfold finish
  rw [hver, hbad, hhelp, hreq, hmis, hused, hsch, hx]
  simp only [if_true, hval (o := .config) nofun nofun, hval (o := .pipeline) nofun nofun, fun f => hval (o := .out f) nofun nofun]

/-- After the mark `--` the mode is still understood, but the choice of the scheduler is lost: whatever is asked for, combinational pipelining is
used. -/
theorem mark_loses_scheduler (b : String → Option Bool) (cfg : SimConfig) {is : List Item} {ls : List String} (hw : WritesAll is ls)
    {config : String} {o : Options} (h : commandLine b cfg ("hls" :: ls) = .hls config o) :
    commandLine b cfg ("--" :: "hls" :: ls) = .hls config { o with scheduler := .combPipelining } := by
  have e : run .init ("--" :: "hls" :: ls) = { final is with listed := [], posOnly := true } := by
    rw [run_cons]
    have s1 : step .init "--" ("hls" :: ls) = (⟨.root, true, [], [], [], []⟩, "hls" :: ls) := rfl
    rw [s1, run_cons]
    have s2 : step ⟨.root, true, [], [], [], []⟩ "hls" ls = (⟨.hls, true, [.hls], [], [], []⟩, ls) := rfl
    rw [s2, run_items hw rfl]
    simp [final]
  unfold commandLine at h ⊢
  rw [run_hls hw] at h
  rw [e]
  have hr : ∀ o, ({ final is with listed := [], posOnly := true } : St).results o = (final is).results o := fun _ => rfl
  have hhelp : wantsHelp { final is with listed := [], posOnly := true } = false := by
    unfold wantsHelp
    rw [hr, hr, no_other (by simp), no_other (by simp)]
    rfl
  have hval : ∀ o x, ({ final is with listed := [], posOnly := true } : St).value o x = (final is).value o x := fun _ _ => rfl
  unfold finish at h ⊢
  have hver : versionStop b { final is with listed := [], posOnly := true } = versionStop b (final is) := rfl
  have hbad : badValues { final is with listed := [], posOnly := true } = badValues (final is) := rfl
  have hreq : badRequirements { final is with listed := [], posOnly := true } = badRequirements (final is) := rfl
  have hx : (final is).used.contains .hls = true := rfl
  have hsch : schedulerOf { final is with listed := [], posOnly := true } = .combPipelining := rfl
  rw [hver, hbad, hreq, hhelp, hsch]
  rw [version_none] at h ⊢
  cases g1 : badValues (final is) with
  | true => rw [g1] at h; cases h
  | false =>
    cases g2 : wantsHelp (final is) with
    | true => rw [g1, g2] at h; cases h
    | false =>
      cases g3 : badRequirements (final is) with
      | true => rw [g1, g2, g3] at h; cases h
      | false =>
        cases g4 : (final is).missing.isEmpty with
        | false => rw [g1, g2, g3, g4] at h; cases h
        | true =>
          rw [g1, g2, g3, g4, hx] at h
          simp only [Bool.false_eq_true, if_false, if_true, Bool.not_true, Outcome.hls.injEq] at h
          obtain ⟨rfl, rfl⟩ := h
          simp only [Bool.false_eq_true, if_false, hval, Bool.not_true, hx, if_true]

end Verif.Cli
