/-
Model of the part of the template engine (ctemplate, an external library) that the project's templates use: variables, sections and comments, with
`ctemplate::DO_NOT_STRIP` and no modifiers, as called in

* /repo/src/model/dfcxx/lib/dfcxx/simulator.cpp:347-351 (templates/vcd.tpl),
* /repo/src/model/dfcxx/lib/dfcxx/kernel.cpp:155-159 (templates/dot.tpl),
* /repo/src/model/dfcir/lib/dfcir/passes/FIRRTLStubsGeneratorPass.cpp (templates/stubs.tpl).

The library is not part of the repository; the model follows its documentation.
-/
namespace Verif.Tpl

/-- What a template consists of. -/
inductive Node where
  | text (t : List Char)
  | var (name : String)
  | sec (name : String) (body : List Node)

/-- Tokens of a template. -/
inductive Tok where
  | text (t : List Char)
  | var (name : String)
  | opn (name : String)
  | cls (name : String)
  deriving DecidableEq, Repr

/-- The characters before the first `}}`, and those after it. -/
def upTo : List Char → Option (List Char × List Char)
  | [] => none
  | c :: r =>
    if c = '}' ∧ r.head? = some '}' then some ([], r.tail)
    else (upTo r).map fun p => (c :: p.1, p.2)

/-- Characters of names. -/
def nameChar (c : Char) : Bool := c.isAlphanum || c = '_'

def name? (t : List Char) : Option String := if t ≠ [] ∧ t.all nameChar then some (String.ofList t) else none

/-- What stands between `{{` and `}}`: `{{#NAME}}`, `{{/NAME}}`, `{{!comment}}`, `{{NAME}}`; `none`: not a tag. -/
def tag : List Char → Option (Option Tok)
  | '#' :: t => (name? t).map fun n => some (.opn n)
  | '/' :: t => (name? t).map fun n => some (.cls n)
  | '!' :: _ => some none
  | t => (name? t).map fun n => some (.var n)

/-- Adds a character of text. -/
def addChar (c : Char) : List Tok → List Tok
  | .text t :: r => .text (c :: t) :: r
  | r => .text [c] :: r

/-- Tokens of a template.  A tag begins at `{{`; of three or more braces in a row the last two count.  (`n`: a bound for the length.) -/
def lex : Nat → List Char → Option (List Tok)
  | _, [] => some []
  | 0, _ :: _ => none
  | n + 1, c :: r =>
    if c = '{' ∧ r.head? = some '{' ∧ r.tail.head? ≠ some '{' then
      match upTo r.tail with
      | none => none
      | some (t, rest) =>
        match tag t, lex n rest with
        | some none, some ts => some ts
        | some (some k), some ts => some (k :: ts)
        | _, _ => none
    else (lex n r).map (addChar c)

/-- Nesting: `stack` holds the sections that are open, innermost first, each with what precedes it, in reverse; `cur` is what the innermost one has so
far, in reverse. -/
def nest : List Tok → List (String × List Node) → List Node → Option (List Node)
  | [], [], cur => some cur.reverse
  | [], _ :: _, _ => none
  | .text t :: ts, st, cur => nest ts st (.text t :: cur)
  | .var n :: ts, st, cur => nest ts st (.var n :: cur)
  | .opn n :: ts, st, cur => nest ts ((n, cur) :: st) []
  | .cls n :: ts, (m, prev) :: st, cur => if n = m then nest ts st (.sec n cur.reverse :: prev) else none
  | .cls _ :: _, [], _ => none

/-- The template in a text. -/
def parse (t : List Char) : Option (List Node) := (lex t.length t).bind fun ts => nest ts [] []

/-- `ctemplate::TemplateDictionary`: values set by `SetValue`, and for every section the dictionaries added by `AddSectionDictionary`, in order. -/
inductive Dict where
  | mk (vals : List (String × List Char)) (secs : List (String × List Dict))

def Dict.vals : Dict → List (String × List Char)
  | .mk v _ => v

def Dict.secs : Dict → List (String × List Dict)
  | .mk _ s => s

/-- The value of a variable: in the dictionary of the innermost section that has one; nothing if there is none. -/
def valueIn (n : String) : List Dict → List Char
  | [] => []
  | d :: ds => match d.vals.lookup n with
    | some v => v
    | none => valueIn n ds

/-- The dictionaries of a section, found in the same way; a section without dictionaries is hidden. -/
def secIn (n : String) : List Dict → List Dict
  | [] => []
  | d :: ds => match d.secs.lookup n with
    | some v => v
    | none => secIn n ds

mutual

/-- `ctemplate::ExpandTemplate`; `ds`: the dictionaries of the sections around, innermost first. -/
def expand (ds : List Dict) : Node → List Char
  | .text t => t
  | .var n => valueIn n ds
  | .sec n body => (secIn n ds).flatMap fun d => expandAll (d :: ds) body

def expandAll (ds : List Dict) : List Node → List Char
  | [] => []
  | n :: ns => expand ds n ++ expandAll ds ns

end

/-- What a template's text and a dictionary give; nothing for a text that is not a template. -/
def render (t : List Char) (d : Dict) : List Char := match parse t with
  | some ns => expandAll [d] ns
  | none => []

theorem render_eq {t : List Char} {ns : List Node} (h : parse t = some ns) (d : Dict) : render t d = expandAll [d] ns := by
  unfold render
  rw [h]

end Verif.Tpl
