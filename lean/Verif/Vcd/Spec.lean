import Mathlib.Data.List.Basic
/-
Value change dump files as a reader sees them (IEEE Std 1364-2005, 18.2): words between white space; declaration commands `$… … $end` up to
`$enddefinitions`; then times `#n`, changes `b<value> <identifier code>` and `<value><identifier code>`, and the keywords around groups of changes.
Nothing here refers to the project.
-/
namespace Verif.Vcd

abbrev Word := List Char

def isBlank (c : Char) : Bool := c = ' ' || c = '\t' || c = '\n' || c = '\x0b' || c = '\x0c' || c = '\r'

/-- The words of a text; `cur` is the word being read, in reverse. -/
def wordsFrom : List Char → List Char → List Word
  | cur, [] => if cur = [] then [] else [cur.reverse]
  | cur, c :: cs =>
    if isBlank c then (if cur = [] then wordsFrom [] cs else cur.reverse :: wordsFrom [] cs)
    else wordsFrom (c :: cur) cs

def words (t : List Char) : List Word := wordsFrom [] t

/-- A number in decimal notation. -/
def decimal? (w : Word) : Option Nat :=
  if w ≠ [] ∧ w.all Char.isDigit then some (w.foldl (fun a c => 10 * a + (c.toNat - 48)) 0) else none

/-- The declaration commands up to `$enddefinitions $end`, each with its arguments, and the words after them.  `cmd`: the command being read, in
reverse. -/
def commands : Option (List Word) → List Word → Option (List (List Word) × List Word)
  | _, [] => none
  | none, w :: ws => if w.head? = some '$' then commands (some [w]) ws else none
  | some cmd, w :: ws =>
    if w = "$end".toList then
      if cmd = ["$enddefinitions".toList] then some ([], ws)
      else (commands none ws).map fun p => (cmd.reverse :: p.1, p.2)
    else commands (some (w :: cmd)) ws

/-- A variable: size, identifier code, reference name. -/
structure Decl where
  size : Nat
  id : Word
  ref : Word
  deriving DecidableEq, Repr

/-- Identifier codes consist of printable ASCII characters. -/
def idWord (w : Word) : Bool := w ≠ [] && w.all fun c => decide ('!' ≤ c ∧ c ≤ '~')

/-- `$var type size id reference`. -/
def decl? : List Word → Option (List Decl)
  | cmd :: args =>
    if cmd = "$var".toList then
      match args with
      | [_, size, id, ref] => if idWord id then (decimal? size).map fun n => [⟨n, id, ref⟩] else none
      | _ => none
    else some []
  | [] => none

def decls? : List (List Word) → Option (List Decl)
  | [] => some []
  | c :: cs => match decl? c, decls? cs with
    | some a, some b => some (a ++ b)
    | _, _ => none

inductive Event where
  | time (t : Nat)
  | change (id value : Word)
  deriving DecidableEq, Repr

def valueChar (c : Char) : Bool := c = '0' || c = '1' || c = 'x' || c = 'z'

/-- Keywords around groups of changes. -/
def keywords : List Word := ["$dumpvars".toList, "$dumpall".toList, "$dumpon".toList, "$dumpoff".toList, "$end".toList]

/-- What a word says: nothing, a time, the value of a vector (its identifier code follows), a change of a scalar. -/
inductive Meaning where
  | nothing
  | time (t : Nat)
  | vector (value : Word)
  | scalar (value : Char) (id : Word)

def meaning (w : Word) : Option Meaning :=
  if keywords.contains w then some .nothing
  else match w with
    | [] => none
    | c :: r =>
      if c = '#' then (decimal? r).map .time
      else if c = 'b' then (if r.all valueChar then some (.vector r) else none)
      else if valueChar c ∧ r ≠ [] then some (.scalar c r)
      else none

/-- Times and changes; `pending`: a vector's value whose identifier code comes next. -/
def events : Option Word → List Word → Option (List Event)
  | none, [] => some []
  | some _, [] => none
  | some v, id :: ws => (events none ws).map fun es => .change id v :: es
  | none, w :: ws =>
    match meaning w with
    | none => none
    | some .nothing => events none ws
    | some (.time n) => (events none ws).map fun es => .time n :: es
    | some (.vector v) => events (some v) ws
    | some (.scalar c id) => (events none ws).map fun es => .change id [c] :: es

structure File where
  decls : List Decl
  events : List Event
  deriving DecidableEq, Repr

/-- Reads a file. -/
def read (t : List Char) : Option File :=
  match commands none (words t) with
  | none => none
  | some (cs, ws) => match decls? cs, events none ws with
    | some ds, some es => some ⟨ds, es⟩
    | _, _ => none

/-- The value the variable with identifier code `id` has at time `t`: that of the last change up to then. -/
def valueAt (id : Word) (t : Nat) : List Event → Option Word → Option Word
  | [], v => v
  | .time n :: es, v => if n ≤ t then valueAt id t es v else v
  | .change i x :: es, v => valueAt id t es (if i = id then some x else v)

/-- In the file, exactly one variable has the name `ref`; it has size `size`, shares its identifier code with no other variable, and has the value
`value` at time `t`. -/
def Shows (f : File) (ref : Word) (size t : Nat) (value : Word) : Prop :=
  ∃ d ∈ f.decls, d.ref = ref ∧ d.size = size ∧ (∀ d' ∈ f.decls, d'.ref = ref ∨ d'.id = d.id → d' = d) ∧ valueAt d.id t f.events none = some value

/-- The last time in a file. -/
def endTime : List Event → Nat
  | [] => 0
  | .time n :: es => max n (endTime es)
  | .change _ _ :: es => endTime es

end Verif.Vcd
