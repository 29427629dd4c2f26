import Verif.Driver.Model
/-
The command line: what /repo/src/main.cpp and /repo/src/options.h make of the arguments.  The options are parsed by the vendored library
CLI11 (/repo/lib/CLI11/CLI/{App,Option,Split,TypeTools}.hpp, version 2.2.0); modelled is what its parser does with the options declared in
options.h.  The tree of apps is: the program, its subcommands `hls` and `sim`, and two nameless option groups inside `hls`.

Simplifications: bytes of arguments are characters; the value of `--version=...` is converted by a parameter (`boolCast`); the texts of
messages are not modelled, and of exit codes only whether they are 0.
-/
namespace Verif.Cli
open Verif.Config Verif.Driver

/-- The apps that have a name: the program, and the subcommands (options.h:189, 351, 379). -/
inductive App
  | root
  | hls
  | sim
deriving DecidableEq, Repr

/-- The options.  `-h,--help` is inherited by every subcommand (App.hpp:290-292). -/
inductive Opt
  | help (a : App)
  | helpAll
  | version
  | config
  | asap
  | linear
  | pipeline
  | out (f : Format)
  | simIn
  | simOut
deriving DecidableEq, Repr

/-- Options declared with `add_flag` take no value (App.hpp:845-847). -/
def Opt.isFlag : Opt → Bool
  | .help _ | .helpAll | .version | .asap | .linear => true
  | _ => false

/-- Is the option in one of the option groups (options.h:203-226, 229-275)? -/
def Opt.grouped : Opt → Bool
  | .asap | .linear | .pipeline | .out _ => true
  | _ => false

/-- The long names (options.h:53-86, 386-387; App.hpp:326), in the order in which `_parse_arg` looks (App.hpp:2744-2766). -/
def longNames : App → List (String × Opt)
  | .root => [("help", .help .root), ("help-all", .helpAll), ("version", .version)]
  | .hls => [("help", .help .hls), ("config", .config), ("pipeline", .pipeline), ("out-sv", .out .SystemVerilog), ("out-sv-lib", .out .SVLibrary),
      ("out-dfcir", .out .UnscheduledDFCIR), ("out-scheduled-dfcir", .out .ScheduledDFCIR), ("out-firrtl", .out .FIRRTL), ("out-dot", .out .DOT)]
  | .sim => [("help", .help .sim), ("in", .simIn), ("out", .simOut)]

/-- The short names; all of them are flags. -/
def shortNames : App → List (Char × Opt)
  | .root => [('h', .help .root), ('H', .helpAll), ('v', .version)]
  | .hls => [('h', .help .hls), ('a', .asap), ('l', .linear)]
  | .sim => [('h', .help .sim)]

/-- `default_str` (options.h:57-86); the one of `--pipeline` is the printed initial value of `stages` (options.h:216, typedefs.h:95). -/
def Opt.defaultStr : Opt → String
  | .config => "latency.json"
  | .pipeline => "0"
  | .out .SystemVerilog => "output.sv"
  | .out .SVLibrary => "output-lib.sv"
  | .out .UnscheduledDFCIR => "dfcir.mlir"
  | .out .ScheduledDFCIR => "scheduled-dfcir.mlir"
  | .out .FIRRTL => "firrtl.mlir"
  | .out .DOT => "output.dot"
  | .simIn => "sim.txt"
  | .simOut => "sim_out.vcd"
  | _ => ""

/-! ### Classifying an argument -/

/-- `valid_first_char` (StringTools.hpp:219). -/
def validFirst (c : Char) : Bool := c != '-' && c != '!' && c != ' ' && c != '\n'

/-- `split_long` (Split.hpp:35-48): name and value. -/
def splitLong (s : String) : Option (List Char × List Char) :=
  match s.toList with
  | '-' :: '-' :: c :: r =>
    if validFirst c then some ((c :: r).takeWhile (· != '='), ((c :: r).dropWhile (· != '=')).tail) else none
  | _ => none

/-- `split_short` (Split.hpp:25-32): name and rest. -/
def splitShort (s : String) : Option (Char × List Char) :=
  match s.toList with
  | '-' :: c :: r => if validFirst c then some (c, r) else none
  | _ => none

/-- `detail::Classifier`, with what the split functions return. -/
inductive Class
  | mark
  | sub (a : App)
  | long (name value : List Char)
  | short (c : Char) (rest : List Char)
  | term
  | none
deriving DecidableEq, Repr

/-- The subcommand of that name (`_find_subcommand`, App.hpp:2663-2680). -/
def subNamed (s : String) : Option App := if s = "hls" then some .hls else if s = "sim" then some .sim else none

/-- `_valid_subcommand` (App.hpp:1974-1985): apps ask their parents, so every app knows both subcommands. -/
def validSub (used : List App) (ignoreUsed : Bool) (s : String) : Option App :=
  (subNamed s).filter fun a => !(ignoreUsed && used.contains a)

/-- `_recognize` (App.hpp:1988-2011); `named`: it is called on a subcommand with a name.  No option is called after a digit. -/
def recognize (named : Bool) (used : List App) (ignoreUsed : Bool) (s : String) : Class :=
  if s = "--" then .mark
  else match validSub used ignoreUsed s with
    | some a => .sub a
    | none => match splitLong s with
      | some (n, v) => .long n v
      | none => match splitShort s with
        | some (c, r) => if '0' ≤ c ∧ c ≤ '9' then .none else .short c r
        | none => if s = "++" ∧ named = true then .term else .none

/-! ### The parser -/

/-- The state of the parser: the app whose `_parse` loop is running, the local variable `positional_only` of the program's loop, the apps with
`parsed_` > 0, `parsed_subcommands_` of the program, the results of the options in the order of their coming (`results_`), and what no one wants
(`missing_` of all apps without the marks `--`). -/
structure St where
  app : App
  posOnly : Bool
  used : List App
  listed : List App
  log : List (Opt × String)
  missing : List String
deriving DecidableEq, Repr

def St.init : St := ⟨.root, false, [], [], [], []⟩

/-- `add_result` (Option.hpp:987-998, 1328-1358). -/
def St.add (s : St) (o : Opt) (v : String) : St := { s with log := s.log ++ [(o, v)] }

/-- `results_` of an option. -/
def St.results (s : St) (o : Opt) : List String := (s.log.filter fun e => e.1 == o).map Prod.snd

/-- App.hpp:2860-2861: a mark after an option is eaten. -/
def dropMark : List String → List String
  | "--" :: r => r
  | r => r

/-- App.hpp:2836-2868, for an option with `expected(0, 1)` that has no value yet: the next argument if it is not recognized as something
else, or the default. -/
def takeValue (s : St) (o : Opt) (rest : List String) : St × List String :=
  match rest with
  | [] => (s.add o o.defaultStr, [])
  | v :: r =>
    if recognize (!o.grouped) s.used false v = .none then (s.add o v, dropMark r) else (s.add o o.defaultStr, dropMark (v :: r))

/-- `_parse_arg` for a long option (App.hpp:2715-2884); `get_flag_value` (Option.hpp:943-984). -/
def parseLong (s : St) (t : String) (name value : List Char) (rest : List String) : St × List String :=
  match (longNames s.app).find? fun e => e.1.toList == name with
  | none => ({ s with missing := s.missing ++ [t] }, rest)
  | some (_, o) =>
    if o.isFlag then (s.add o (if value = [] ∨ value = "{}".toList then "true" else String.ofList value), rest)
    else if value ≠ [] then (s.add o (String.ofList value), rest)
    else takeValue s o rest

/-- `_parse_arg` for a short option: all of them are flags, the rest of the argument is put back (App.hpp:2880-2883). -/
def parseShort (s : St) (t : String) (c : Char) (r : List Char) (rest : List String) : St × List String :=
  match (shortNames s.app).find? fun e => e.1 == c with
  | none => ({ s with missing := s.missing ++ [t] }, rest)
  | some (_, o) => (s.add o "true", if r = [] then rest else String.ofList ('-' :: r) :: rest)

/-- Entering a subcommand: `increment_parsed` (App.hpp:2315-2325). -/
def St.enter (s : St) (a : App) : St := { s with app := a, used := if s.used.contains a then s.used else s.used ++ [a] }

/-- One turn of the loop of `_parse`: `_parse_single` (App.hpp:2467-2509) with `_parse_positional` (2537-2660) and `_parse_subcommand`
(2685-2711).  A subcommand that returns `false` gives control back to the program. -/
def step (s : St) (t : String) (rest : List String) : St × List String :=
  match s.app with
  | .root =>
    match (if s.posOnly then Class.none else recognize false s.used true t) with
    | .mark => ({ s with posOnly := true }, rest)
    | .sub a => ({ s.enter a with listed := s.listed ++ [a] }, rest)
    | .long n v => parseLong s t n v rest
    | .short c r => parseShort s t c r rest
    | .term => ({ s with missing := s.missing ++ [t] }, rest)
    | .none => match subNamed t with
      | some a => (s.enter a, rest)
      | none => ({ s with missing := s.missing ++ [t] }, rest)
  | _ =>
    match recognize true s.used true t with
    | .mark | .term => ({ s with app := .root }, rest)
    | .sub _ => ({ s with app := .root }, t :: rest)
    | .long n v => parseLong s t n v rest
    | .short c r => parseShort s t c r rest
    | .none => match subNamed t with
      | some _ => ({ s with app := .root }, t :: rest)
      | none => ({ s with missing := s.missing ++ [t] }, rest)

/-- A bound on the number of turns. -/
def weight (args : List String) : Nat := (args.map fun t => t.toList.length + 1).sum

def St.level (s : St) : Nat := match s.app with | .root => 0 | _ => 1

theorem dropMark_weight (r : List String) : weight (dropMark r) ≤ weight r := by
  unfold dropMark
  split
  · simp [weight]
  · exact Nat.le_refl _

theorem weight_cons (t : String) (r : List String) : weight (t :: r) = t.toList.length + 1 + weight r := by simp [weight]

theorem takeValue_weight (s : St) (o : Opt) (rest : List String) : weight (takeValue s o rest).2 ≤ weight rest := by
  unfold takeValue
  split
  · simp
  · split
    · rename_i v r _
      have := dropMark_weight r
      simp only [weight_cons]
      omega
    · exact dropMark_weight _

theorem parseLong_weight (s : St) (t : String) (n v : List Char) (rest : List String) : weight (parseLong s t n v rest).2 ≤ weight rest := by
  unfold parseLong
  split
  · simp
  · split
    · simp
    · split
      · simp
      · exact takeValue_weight _ _ _

theorem recognize_short {n : Bool} {u : List App} {i : Bool} {t : String} {c : Char} {r : List Char} (h : recognize n u i t = .short c r) :
    t.toList = '-' :: c :: r := by
  unfold recognize at h
  split at h; · cases h
  split at h; · cases h
  split at h; · cases h
  split at h
  · rename_i c' r' hs
    split at h
    · cases h
    · simp only [Class.short.injEq] at h
      obtain ⟨rfl, rfl⟩ := h
      unfold splitShort at hs
      split at hs
      · rename_i e
        split at hs
        · simp only [Option.some.injEq, Prod.mk.injEq] at hs
          rw [e, hs.1, hs.2]
        · cases hs
      · cases hs
  · split at h <;> cases h

theorem parseShort_weight (s : St) (t : String) (c : Char) (r : List Char) (rest : List String) (h : t.toList = '-' :: c :: r) :
    weight (parseShort s t c r rest).2 < weight (t :: rest) := by
  have ht : t.toList.length = r.length + 2 := by rw [h]; rfl
  unfold parseShort
  simp only [weight_cons, ht]
  split
  · simp only; omega
  · split
    · simp only; omega
    · simp only [weight_cons, String.toList_ofList, List.length_cons]; omega

/-- Every turn uses up something. -/
theorem step_decreases (s : St) (t : String) (rest : List String) :
    2 * weight (step s t rest).2 + (step s t rest).1.level < 2 * weight (t :: rest) + s.level := by
  have hw : weight rest < weight (t :: rest) := by rw [weight_cons]; omega
  have hl : ∀ s : St, s.level ≤ 1 := fun s => by unfold St.level; split <;> omega
  have big : ∀ {p : St × List String}, weight p.2 < weight (t :: rest) → 2 * weight p.2 + p.1.level < 2 * weight (t :: rest) + s.level := by
    intro p hp
    have := hl p.1
    omega
  have long : ∀ n v, weight (parseLong s t n v rest).2 < weight (t :: rest) := fun n v => Nat.lt_of_le_of_lt (parseLong_weight s t n v rest) hw
  have short : ∀ {nm u i c r}, recognize nm u i t = .short c r → weight (parseShort s t c r rest).2 < weight (t :: rest) :=
    fun h => parseShort_weight _ _ _ _ _ (recognize_short h)
  cases happ : s.app with
  | root =>
    unfold step
    simp only [happ]
    split
    · exact big hw
    · exact big hw
    · exact big (long _ _)
    · rename_i h
      split at h
      · cases h
      · exact big (short h)
    · exact big hw
    · split <;> exact big hw
  | hls | sim =>
    have h1 : s.level = 1 := by unfold St.level; rw [happ]
    unfold step
    simp only [happ]
    split
    · exact big hw
    · exact big hw
    · rw [h1]; simp [St.level]
    · exact big (long _ _)
    · rename_i h
      exact big (short h)
    · split
      · rw [h1]; simp [St.level]
      · exact big hw

/-- The loop (App.hpp:2323-2333). -/
def run (s : St) (args : List String) : St :=
  match args with
  | [] => s
  | t :: rest => run (step s t rest).1 (step s t rest).2
termination_by 2 * weight args + s.level
decreasing_by exact step_decreases s t rest

/-! ### After the loop -/

/-- `isspace` of the C library. -/
def isSpace (c : Char) : Bool := c == ' ' || c == '\t' || c == '\n' || c == '\x0b' || c == '\x0c' || c == '\r'

/-- The value of a digit. -/
def digit (c : Char) : Option Nat :=
  if '0' ≤ c ∧ c ≤ '9' then some (c.toNat - '0'.toNat)
  else if 'a' ≤ c ∧ c ≤ 'z' then some (c.toNat - 'a'.toNat + 10)
  else if 'A' ≤ c ∧ c ≤ 'Z' then some (c.toNat - 'A'.toNat + 10)
  else none

/-- Digits of a base, all of them. -/
def digits (base : Nat) (acc : Nat) : List Char → Option Nat
  | [] => some acc
  | c :: r => match digit c with
    | some d => if d < base then digits base (base * acc + d) r else none
    | none => none

/-- The base and the digits for base 0 of `strtoull`. -/
def prefixed : List Char → Option Nat
  | [] => none
  | '0' :: x :: c :: r => if (x == 'x' || x == 'X') && (digits 16 0 [c]).isSome then digits 16 0 (c :: r) else digits 8 0 (x :: c :: r)
  | '0' :: r => digits 8 0 r
  | r => digits 10 0 r

/-- `integral_conversion<uint64_t>` (TypeTools.hpp:795-813): `strtoull` with base 0, which must use up the whole argument.  It takes a sign, too:
values are negated modulo 2^64; values that are too big become the greatest one.  (`strtoll` reads the same arguments.) -/
def strtoull (s : List Char) : Option Nat :=
  let body (r : List Char) : Option Nat := (prefixed r).map fun n => min n (2 ^ 64 - 1)
  match s.dropWhile isSpace with
  | '-' :: r => (prefixed r).map fun n => if n < 2 ^ 64 then (2 ^ 64 - n) % 2 ^ 64 else 2 ^ 64 - 1
  | '+' :: r => body r
  | r => body r

/-- `lexical_assign` (TypeTools.hpp:1118-1125): the empty argument is 0. -/
def stagesOf (s : String) : Option Nat := if s = "" then some 0 else strtoull s.toList

/-- Why the program stops before doing anything: with exit code 0 for help and version (App.hpp:1314-1341). -/
inductive Stop
  | help
  | version
  | error
deriving DecidableEq, Repr

def Stop.code : Stop → Nat
  | .help | .version => 0
  | .error => 1

/-- What the program does: `hls` with the name of the latency configuration (empty: none) and the options of the compiler; `sim` with its input and
output paths. -/
inductive Outcome
  | stop (e : Stop)
  | hls (config : String) (o : Driver.Options)
  | sim (inp out : String)

/-- The section "sim" of config.json (options.h:367-370, 404-407; the file itself: Verif/Json); the section "hls" is not looked at (options.h:288). -/
structure SimConfig where
  inp : Option String
  out : Option String

/-- The variable bound to an option, after its callback (App.hpp:1118-1140): the result if there is one, what it was before otherwise. -/
def St.value (s : St) (o : Opt) (before : String) : String := ((s.results o).head?).getD before

/-- All formats. -/
def formats : List Format := [.SystemVerilog, .SVLibrary, .UnscheduledDFCIR, .ScheduledDFCIR, .FIRRTL, .DOT]

/-- `--version`: `CallForVersion` is thrown by the callback of the flag (App.hpp:765-767, 894-904); the last value counts. -/
def versionStop (boolCast : String → Option Bool) (s : St) : Option Stop :=
  match (s.results .version).getLast? with
  | none => none
  | some v => match boolCast v with
    | none => some .error
    | some true => some .version
    | some false => none

/-- `_process_callbacks` (App.hpp:2081-2104): options with a value may be given once (`MultiOptionPolicy::Throw`, Option.hpp:1273-1291), and the
number of stages must be a number. -/
def badValues (s : St) : Bool :=
  [Opt.config, .pipeline, .simIn, .simOut].any (fun o => decide (1 < (s.results o).length)) ||
  formats.any (fun f => decide (1 < (s.results (.out f)).length)) ||
  (s.results .pipeline).any (fun v => (stagesOf v).isNone)

/-- `_process_help_flags` (App.hpp:2108-2128). -/
def wantsHelp (s : St) : Bool :=
  if s.listed.isEmpty then !(s.results (.help .root)).isEmpty || !(s.results .helpAll).isEmpty
  else s.listed.any fun a => !(s.results (.help .root)).isEmpty || !(s.results .helpAll).isEmpty || !(s.results (.help a)).isEmpty

/-- `_process_requirements` (App.hpp:2131-2257), `require_option` (options.h:218, 275): at most one scheduler, at least one output. -/
def badRequirements (s : St) : Bool :=
  s.used.contains .hls &&
  (decide (1 < ([Opt.asap, .linear, .pipeline].filter fun o => !(s.results o).isEmpty).length) ||
   formats.all fun f => (s.results (.out f)).isEmpty)

/-- The callback of the scheduler group (options.h:221-242).  It is run only if `hls` is among the parsed subcommands of the program
(App.hpp:1952-1970). -/
def schedulerOf (s : St) : Scheduler :=
  if s.listed.contains .hls then
    if !(s.results .pipeline).isEmpty then .combPipelining
    else if !(s.results .linear).isEmpty then .linear
    else if !(s.results .asap).isEmpty then .asap
    else .combPipelining
  else .combPipelining

/-- `_process` and `_process_extras` (App.hpp:2260-2297), the end of `main` (main.cpp:73-84). -/
def finish (boolCast : String → Option Bool) (cfg : SimConfig) (s : St) : Outcome :=
  match versionStop boolCast s with
  | some e => .stop e
  | none =>
    if badValues s then .stop .error
    else if wantsHelp s then .stop .help
    else if badRequirements s then .stop .error
    else if !s.missing.isEmpty then .stop .error
    else if s.used.contains .hls then
      .hls (s.value .config "") ⟨schedulerOf s, (stagesOf (s.value .pipeline "")).getD 0, formats.map fun f => s.value (.out f) ""⟩
    else .sim (s.value .simIn (cfg.inp.getD "")) (s.value .simOut (cfg.out.getD ""))

/-- `main` (main.cpp:60-85) without the program name. -/
def commandLine (boolCast : String → Option Bool) (cfg : SimConfig) (args : List String) : Outcome :=
  finish boolCast cfg (run .init args)

/-- The whole program (main.cpp:60-85): the exit code and the files afterwards.  The stages of the compiler depend on the latency configuration
(options.h:319-326); `simMain` (main.cpp:55-59) is a parameter. -/
def program {M : Type} (boolCast : String → Option Bool) (cfg : SimConfig) (B : String → Backend M)
    (simMain : String → String → Files → Except Dfcxx.Fault (Nat × Files)) (args : List String) (fs : Files) : Except Dfcxx.Fault (Nat × Files) :=
  match commandLine boolCast cfg args with
  | .stop e => .ok (e.code, fs)
  | .hls config o => hlsMain (B config) o fs
  | .sim inp out => simMain inp out fs

end Verif.Cli
