import Verif.Dfcxx.World
/-
Model of the DOT output: `Kernel::compileDot` (/repo/src/model/dfcxx/lib/dfcxx/kernel.cpp:71-160) with the template
/repo/src/model/dfcxx/templates/dot.tpl.

* The template engine is modelled by what it does with this template: the two sections are repeated once per dictionary, in order,
  and values are inserted without escaping (`DO_NOT_STRIP`, no modifiers; the `LICENSE` section has no dictionary, so it is empty).
* The time stamp of line 9 of the template is a parameter.
* The hash set `meta.graph.getNodes()` is enumerated in some order: the list `nodes`.
-/
namespace Verif.Dot
open Verif.Dfcxx

/-- One line of the body of the graph: dot.tpl:11 and dot.tpl:12. -/
inductive Stmt where
  | elem (name shape label : String)
  | conn (src trg label : String)
  deriving DecidableEq, Repr

/-- The captured variables of the lambda `getName` (kernel.cpp:74-75): `counter` and `idMapping`. -/
structure Names where
  counter : Nat
  map : List (Nat × String)

/-- `getName` (kernel.cpp:76-89). -/
def getName (w : World) (s : Names) (n : Nat) : Names × String :=
  if (w.node n).name ≠ "" then (s, (w.node n).name)
  else match s.map.lookup n with
    | some x => (s, x)
    | none => (⟨s.counter + 1, (n, "node" ++ Nat.repr s.counter) :: s.map⟩, "node" ++ Nat.repr s.counter)

/-- `data.offset` as printed by `std::to_string` (kernel.cpp:118).  The other members are never read here. -/
def offsetText : NodeData → String
  | .offset o => Int.repr o
  | _ => Int.repr 0

/-- `data.bitShift` as printed by `std::to_string` (kernel.cpp:138-139). -/
def shiftText : NodeData → String
  | .bitShift k => Nat.repr k
  | _ => Nat.repr 0

/-- The variables `shape` and `label` after the switch (kernel.cpp:112-141). -/
def shapeLabel (op : OpType) (data : NodeData) (name : String) : String × String :=
  match op with
  | .OFFSET => ("diamond", offsetText data)
  | .IN => ("invtriangle", name)
  | .OUT => ("triangle", name)
  | .MUX => ("invtrapezium", name)
  | .ADD => ("box", "+")
  | .SUB => ("box", "-")
  | .MUL => ("box", "*")
  | .DIV => ("box", "/")
  | .AND => ("box", "&")
  | .OR => ("box", "|")
  | .XOR => ("box", "^")
  | .NOT => ("box", "!")
  | .NEG => ("box", "-")
  | .LESS => ("box", "<")
  | .LESSEQ => ("box", "<=")
  | .GREATER => ("box", ">")
  | .GREATEREQ => ("box", ">=")
  | .EQ => ("box", "==")
  | .NEQ => ("box", "!=")
  | .SHL => ("box", "<< " ++ shiftText data)
  | .SHR => ("box", ">> " ++ shiftText data)
  | _ => ("box", name)

/-- The loop over the input channels (kernel.cpp:146-152), from index `i`. -/
def connections (w : World) (name : String) : Names → Nat → List Nat → Names × List Stmt
  | s, _, [] => (s, [])
  | s, i, c :: cs =>
    let (s, src) := getName w s (w.chan c).src
    let (s, rest) := connections w name s (i + 1) cs
    (s, .conn src name (Nat.repr i) :: rest)

/-- The loop over the nodes (kernel.cpp:107-153). -/
def elements (w : World) : Names → List Nat → Names × List Stmt
  | s, [] => (s, [])
  | s, n :: ns =>
    let (s, name) := getName w s n
    let (shape, label) := shapeLabel (w.node n).op (w.node n).data name
    let (s, conns) := connections w name s 0 (w.node n).ins
    let (s, rest) := elements w s ns
    (s, .elem name shape label :: (conns ++ rest))

/-- dot.tpl:11 and dot.tpl:12: what the engine writes for one statement, with the white space up to the next tag. -/
def Stmt.text : Stmt → String
  | .elem name shape label => name ++ " [shape=" ++ shape ++ ", label=\"" ++ label ++ "\"]\n  "
  | .conn src trg label => src ++ " -> " ++ trg ++ " [label=\"" ++ label ++ "\"]\n  "

/-- Is the statement the last one of its element? -/
def lastOfElem : List Stmt → Bool
  | .conn .. :: _ => false
  | _ => true

/-- dot.tpl:11-14: the repeated sections; each element ends with the white space of lines 13-14. -/
def bodyText : List Stmt → String
  | [] => ""
  | s :: rest => s.text ++ (if lastOfElem rest then "\n  " else "") ++ bodyText rest

/-- `Kernel::compileDot` (kernel.cpp:71-160): the statements.  The counter starts at 0 with an empty mapping. -/
def dotStmts (w : World) (nodes : List Nat) : List Stmt := (elements w ⟨0, []⟩ nodes).2

/-- `Kernel::compileDot`: the text written to the stream. -/
def dotText (w : World) (kernel time : String) (nodes : List Nat) : String :=
  "// This file has been automatically generated by Utopia HLS at " ++ time ++ ".\ndigraph " ++ kernel ++ " {\n  " ++
    bodyText (dotStmts w nodes) ++ "\n}\n"

end Verif.Dot
