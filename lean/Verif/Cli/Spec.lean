import Verif.Driver.Model
/-
The command line as /repo/README.md:172-213 documents it: which arguments a user may write, how, and what they ask for.  Nothing here refers to the
parser.
-/
namespace Verif.Cli.Spec
open Verif.Config Verif.Driver

/-- An option of `hls` mode with its value, as the user thinks of it.  `none`: "option specified with no <PATH>".  `unknown`: an argument that
looks like an option but is not one of the documented options. -/
inductive Item
  | asap
  | linear
  | help
  | config (v : Option String)
  | pipeline (v : Option String)
  | out (f : Format) (v : Option String)
  | unknown (t : String)
deriving DecidableEq

/-- The documented names of the output options. -/
def outName : Format → String
  | .SystemVerilog => "out-sv"
  | .SVLibrary => "out-sv-lib"
  | .UnscheduledDFCIR => "out-dfcir"
  | .ScheduledDFCIR => "out-scheduled-dfcir"
  | .FIRRTL => "out-firrtl"
  | .DOT => "out-dot"
  | .COUNT => ""

/-- "default if option specified with no <PATH>". -/
def outDefault : Format → String
  | .SystemVerilog => "output.sv"
  | .SVLibrary => "output-lib.sv"
  | .UnscheduledDFCIR => "dfcir.mlir"
  | .ScheduledDFCIR => "scheduled-dfcir.mlir"
  | .FIRRTL => "firrtl.mlir"
  | .DOT => "output.dot"
  | .COUNT => ""

/-- The long names of `hls` mode. -/
def documented : List String :=
  ["help", "config", "pipeline", "out-sv", "out-sv-lib", "out-dfcir", "out-scheduled-dfcir", "out-firrtl", "out-dot"]

/-- A value that can be written as an argument of its own: it is not empty, does not begin with a dash, and is not one of three reserved words. -/
def Plain (v : String) : Prop := v ≠ "" ∧ v.toList.head? ≠ some '-' ∧ v ≠ "hls" ∧ v ≠ "sim" ∧ v ≠ "++"

/-- The ways of writing an option that takes a value. -/
inductive Valued (name : String) : Option String → List String → Prop
  | bare : Valued name none ["--" ++ name]
  | next {v} : Plain v → Valued name (some v) ["--" ++ name, v]
  | eq {v} : v ≠ "" → Valued name (some v) ["--" ++ name ++ "=" ++ v]

/-- Something like an option that is not documented: `--name`, `--name=value`, or a dash and one letter. -/
inductive Unknown : String → Prop
  | long {n : String} {c : Char} {r : List Char} : n.toList = c :: r → c.isAlpha = true → '=' ∉ r → n ∉ documented → Unknown ("--" ++ n)
  | longEq {n : String} {c : Char} {r : List Char} {v : String} : n.toList = c :: r → c.isAlpha = true → '=' ∉ r → n ∉ documented →
      Unknown ("--" ++ n ++ "=" ++ v)
  | short {c : Char} : c.isAlpha = true → c ≠ 'h' → c ≠ 'a' → c ≠ 'l' → Unknown (String.ofList ['-', c])

/-- The arguments that write an item. -/
inductive Writes : Item → List String → Prop
  | asap : Writes .asap ["-a"]
  | linear : Writes .linear ["-l"]
  | help : Writes .help ["--help"]
  | shortHelp : Writes .help ["-h"]
  | config {v l} : Valued "config" v l → Writes (.config v) l
  | pipeline {v l} : Valued "pipeline" v l → Writes (.pipeline v) l
  | out {f v l} : f ≠ .COUNT → Valued (outName f) v l → Writes (.out f v) l
  /-- `++` can be the value of an option in a group, i.e. of any but `--config`. -/
  | pipelinePlus : Writes (.pipeline (some "++")) ["--pipeline", "++"]
  | outPlus {f} : f ≠ .COUNT → Writes (.out f (some "++")) ["--" ++ outName f, "++"]
  | unknown {t} : Unknown t → Writes (.unknown t) [t]

/-- The arguments that write the items one after the other. -/
inductive WritesAll : List Item → List String → Prop
  | nil : WritesAll [] []
  | cons {i l is ls} : Writes i l → WritesAll is ls → WritesAll (i :: is) (l ++ ls)

/-- A number in decimal notation. -/
def Decimal (v : String) (n : Nat) : Prop := v = Nat.repr n ∧ n < 2 ^ 64

/-- Certainly not a number: it begins with something that is neither a digit, nor a sign, nor white space; or it begins with a digit other than 0
and contains something that is not a digit; or it is `++`. -/
def NotNumber (v : String) : Prop :=
  v = "++" ∨ ∃ c r, v.toList = c :: r ∧
    ((c.isDigit = false ∧ c ≠ '+' ∧ c ≠ '-' ∧ c.isWhitespace = false ∧ c ≠ '\x0b' ∧ c ≠ '\x0c') ∨
     (c.isDigit = true ∧ c ≠ '0' ∧ ∃ d ∈ r, d.isDigit = false))

/-- How often something is there. -/
def times (p : Item → Bool) (is : List Item) : Nat := (is.filter p).length

def Item.isConfig : Item → Bool
  | .config _ => true
  | _ => false

def Item.isPipeline : Item → Bool
  | .pipeline _ => true
  | _ => false

def Item.isOut (f : Format) : Item → Bool
  | .out g _ => f == g
  | _ => false

/-- Every option that takes a value is there at most once, and the number of stages is a number; `num v n`: `v` is a notation for the number `n`. -/
structure WellGiven (num : String → Nat → Prop) (is : List Item) : Prop where
  config : times Item.isConfig is ≤ 1
  pipeline : times Item.isPipeline is ≤ 1
  outs : ∀ f, f ≠ .COUNT → times (Item.isOut f) is ≤ 1
  number : ∀ v, .pipeline (some v) ∈ is → ∃ n, num v n

/-- "Exactly one or zero of these flags has to be specified.  At least one of the out-* options has to be specified." -/
structure Valid (num : String → Nat → Prop) (is : List Item) : Prop where
  given : WellGiven num is
  asap : .asap ∈ is → .linear ∉ is ∧ ∀ v, .pipeline v ∉ is
  linear : .linear ∈ is → ∀ v, .pipeline v ∉ is
  output : ∃ f v, .out f v ∈ is
  known : ∀ t, .unknown t ∉ is

/-- What is asked for: the latency configuration file (empty: none), the scheduler with its number of stages, and the paths. -/
structure Means (num : String → Nat → Prop) (is : List Item) (config : String) (o : Options) : Prop where
  config_given : ∀ v, .config v ∈ is → config = v.getD "latency.json"
  config_absent : (∀ v, .config v ∉ is) → config = ""
  asap : .asap ∈ is → o.scheduler = .asap
  linear : .linear ∈ is → o.scheduler = .linear
  pipeline_bare : .pipeline none ∈ is → o.scheduler = .combPipelining ∧ o.stages = 0
  pipeline : ∀ v n, .pipeline (some v) ∈ is → num v n → o.scheduler = .combPipelining ∧ o.stages = n
  /-- "default: --pipeline 0". -/
  unscheduled : .asap ∉ is → .linear ∉ is → (∀ v, .pipeline v ∉ is) → o.scheduler = .combPipelining
  stages : (∀ v, .pipeline v ∉ is) → o.stages = 0
  six : o.paths.length = 6
  path_given : ∀ f v, .out f v ∈ is → o.paths[f.id]? = some (v.getD (outDefault f))
  path_absent : ∀ f, f ≠ .COUNT → (∀ v, .out f v ∉ is) → o.paths[f.id]? = some ""

end Verif.Cli.Spec
