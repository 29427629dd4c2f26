import Mathlib.Data.List.Basic
/-
Specification for C88: a reader for the DOT language, written from the documentation of Graphviz ("DOT Language"), independent of what the tool writes.

Covered: comments to the end of the line, identifiers of letters, digits and underscores, quoted strings (`\"` stands for a quote, any other backslash
for itself), the keywords (which "are case-independent"), directed graphs, attribute statements, node statements, edge statements between two nodes, one
bracketed list of attributes each.  Not covered, hence refused: numerals and HTML strings as identifiers, ports, subgraphs, chains of edges,
`a = b` statements, block comments, several attribute lists.
-/
namespace Verif.Dot.Spec

inductive Tok where
  | id (s : List Char)
  | str (s : List Char)
  | lbrace | rbrace | lbrack | rbrack | eq | comma | semi | arrow
  deriving DecidableEq, Repr

def isStart (c : Char) : Bool := c.isAlpha || c == '_'

def isPart (c : Char) : Bool := c.isAlphanum || c == '_'

def isBlank (c : Char) : Bool := c == ' ' || c == '\n' || c == '\t' || c == '\r'

/-- Where the lexer is: between tokens; in an identifier; in a string, or after a backslash in it; after `-`; after `/`; in a comment. -/
inductive Mode where
  | plain
  | word (acc : List Char)
  | quote (acc : List Char)
  | esc (acc : List Char)
  | dash | slash | comment

/-- A character between tokens. -/
def begin (c : Char) : Option (List Tok × Mode) :=
  if isBlank c then some ([], .plain)
  else if isStart c then some ([], .word [c])
  else match c with
    | '{' => some ([.lbrace], .plain)
    | '}' => some ([.rbrace], .plain)
    | '[' => some ([.lbrack], .plain)
    | ']' => some ([.rbrack], .plain)
    | '=' => some ([.eq], .plain)
    | ',' => some ([.comma], .plain)
    | ';' => some ([.semi], .plain)
    | '"' => some ([], .quote [])
    | '-' => some ([], .dash)
    | '/' => some ([], .slash)
    | _ => none

/-- One character: the tokens it completes, and where the lexer is then.  (The part of an identifier or string read so far is kept in reverse.) -/
def step : Mode → Char → Option (List Tok × Mode)
  | .plain, c => begin c
  | .word acc, c => if isPart c then some ([], .word (c :: acc)) else (begin c).map fun r => (.id acc.reverse :: r.1, r.2)
  | .quote acc, c => if c = '"' then some ([.str acc.reverse], .plain) else if c = '\\' then some ([], .esc acc) else some ([], .quote (c :: acc))
  | .esc acc, c => if c = '"' then some ([], .quote ('"' :: acc)) else some ([], .quote (c :: '\\' :: acc))
  | .dash, c => if c = '>' then some ([.arrow], .plain) else none
  | .slash, c => if c = '/' then some ([], .comment) else none
  | .comment, c => if c = '\n' then some ([], .plain) else some ([], .comment)

def finish : Mode → Option (List Tok)
  | .plain | .comment => some []
  | .word acc => some [.id acc.reverse]
  | _ => none

def lex : Mode → List Char → Option (List Tok)
  | m, [] => finish m
  | m, c :: r => match step m c with
    | some (ts, m') => (lex m' r).map (ts ++ ·)
    | none => none

def keywords : List (List Char) :=
  ["node".toList, "edge".toList, "graph".toList, "digraph".toList, "subgraph".toList, "strict".toList]

def lower (s : List Char) : List Char := s.map Char.toLower

def isKeyword (s : List Char) : Bool := decide (lower s ∈ keywords)

/-- A token that is an ID in the sense of the grammar. -/
def ident : Tok → Option (List Char)
  | .id s => if isKeyword s then none else some s
  | .str s => some s
  | _ => none

abbrev Attrs := List (List Char × List Char)

inductive DotStmt where
  | node (id : List Char) (attrs : Attrs)
  | edge (src trg : List Char) (attrs : Attrs)
  /-- `node [...]`, `edge [...]`, `graph [...]`: defaults for what comes after. -/
  | default (what : List Char) (attrs : Attrs)
  deriving DecidableEq, Repr

/-- The attributes, after the opening bracket. -/
def attrs : List Tok → Option (Attrs × List Tok)
  | .rbrack :: r => some ([], r)
  | a :: .eq :: b :: .comma :: r => do
    let x ← ident a
    let y ← ident b
    let q ← attrs r
    return ((x, y) :: q.1, q.2)
  | a :: .eq :: b :: .semi :: r => do
    let x ← ident a
    let y ← ident b
    let q ← attrs r
    return ((x, y) :: q.1, q.2)
  | a :: .eq :: b :: r => do
    let x ← ident a
    let y ← ident b
    let q ← attrs r
    return ((x, y) :: q.1, q.2)
  | _ => none

def optAttrs : List Tok → Option (Attrs × List Tok)
  | .lbrack :: r => attrs r
  | r => some ([], r)

def optSemi : List Tok → List Tok
  | .semi :: r => r
  | r => r

/-- One statement. -/
def stmt : List Tok → Option (DotStmt × List Tok)
  | a :: .arrow :: b :: r => do
    let x ← ident a
    let y ← ident b
    let q ← optAttrs r
    return (.edge x y q.1, optSemi q.2)
  | a :: r => match ident a with
    | some x => do
      let q ← optAttrs r
      return (.node x q.1, optSemi q.2)
    | none => match a, r with
      | .id s, .lbrack :: r =>
        if lower s = "node".toList ∨ lower s = "edge".toList ∨ lower s = "graph".toList then do
          let q ← attrs r
          return (.default (lower s) q.1, optSemi q.2)
        else none
      | _, _ => none
  | [] => none

/-- Statements up to the closing brace, which must be the end. -/
def stmts : Nat → List Tok → Option (List DotStmt)
  | _, [.rbrace] => some []
  | 0, _ => none
  | n + 1, ts => do
    let q ← stmt ts
    let rest ← stmts n q.2
    return q.1 :: rest

/-- A file: the name of the graph and its statements. -/
def read (text : List Char) : Option (List Char × List DotStmt) := do
  let ts ← lex .plain text
  match ts with
  | .id d :: k :: .lbrace :: r =>
    if lower d = "digraph".toList then do
      let name ← ident k
      let ss ← stmts r.length r
      return (name, ss)
    else none
  | _ => none

/-- What is drawn: nodes with attributes, edges with attributes; with the defaults for new ones. -/
structure Picture where
  nodes : List (List Char × Attrs) := []
  edges : List (List Char × List Char × Attrs) := []
  nodeDef : Attrs := []
  edgeDef : Attrs := []
  deriving Repr

/-- A node is created when it is first mentioned, with the defaults of that moment. -/
def Picture.mention (p : Picture) (x : List Char) : Picture :=
  if x ∈ p.nodes.map Prod.fst then p else { p with nodes := p.nodes ++ [(x, p.nodeDef)] }

/-- Attributes given later prevail: they are put in front. -/
def Picture.draw (p : Picture) : DotStmt → Picture
  | .node x as =>
    let q := p.mention x
    { q with nodes := q.nodes.map fun n => if n.1 = x then (n.1, as.reverse ++ n.2) else n }
  | .edge x y as =>
    let q := (p.mention x).mention y
    { q with edges := q.edges ++ [(x, y, as.reverse ++ q.edgeDef)] }
  | .default w as =>
    if w = "node".toList then { p with nodeDef := as.reverse ++ p.nodeDef }
    else if w = "edge".toList then { p with edgeDef := as.reverse ++ p.edgeDef }
    else p

def picture (ss : List DotStmt) : Picture := ss.foldl Picture.draw {}

/-- The value of an attribute. -/
def value (as : Attrs) (key : String) : Option (List Char) := as.lookup key.toList

end Verif.Dot.Spec
