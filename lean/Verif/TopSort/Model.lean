/-
Model of `dfcxx::topSort`  (/repo/src/model/dfcxx/lib/dfcxx/utils.cpp, lines 25-62).

Nodes are elements of an arbitrary type with decidable equality (in C++: `Node *`).  The graph is given by
* `nodes`  : the node set of the graph in any enumeration order (`graph.getNodes()`; only its size is used),
* `starts` : the start nodes in the (arbitrary, hash dependent) order in which the range-for loop of
  lines 33-36 enumerates `graph.getStartNodes()`,
* `outs n` : the targets of the channels `n->outputs`, in vector order (repetitions possible: `x + x`).
-/
namespace Verif.TopSort

/-- The part of `dfcxx::Graph` / `dfcxx::Node` that `topSort` reads
(graph.h `getNodes`, `getStartNodes`; node.h `outputs`; channel.h `target`). -/
structure Graph (α : Type) where
  nodes  : List α
  starts : List α
  outs   : α → List α

/-- Local variables of `topSort`: `checked` (utils.cpp:30), `stack` (line 31, top first), and `result`
(line 28).  `result` is filled from the back (`result[--i] = node`, line 56), so the filled suffix is kept as
a list and the C++ variable `i` is `nodesCount - res.length`. -/
structure St (α : Type) where
  checked : α → Option Nat
  stack   : List α
  res     : List α

variable {α : Type} [DecidableEq α]

/-- `checked[k] = v` on the unordered_map (utils.cpp:35,47,51). -/
def upd (f : α → Option Nat) (k : α) (v : Nat) : α → Option Nat :=
  fun x => if x = k then some v else f x

/-- utils.cpp:33-36: push every start node and set its counter to 0. -/
def initSt (g : Graph α) : St α :=
  g.starts.foldl
    (fun s n => { s with stack := n :: s.stack, checked := upd s.checked n 0 })
    { checked := fun _ => none, stack := [], res := [] }

/-- utils.cpp:44-52: the scan over `outputs[curr..]`.  `cnt` is the current value of `checked[node]`;
returns the new table and the target that was pushed, if any (`flag == false`). -/
def scan (node : α) : (checked : α → Option Nat) → (cnt : Nat) → (rest : List α) →
    (α → Option Nat) × Option α
  | checked, _, [] => (checked, none)
  | checked, cnt, t :: rest =>
    if checked t = none then
      -- lines 46-50 and then line 51
      (upd (upd checked t 0) node (cnt + 1), some t)
    else
      scan node (upd checked node (cnt + 1)) (cnt + 1) rest

/-- One iteration of the while loop body (utils.cpp:40-57), `node` being the top of the stack. -/
def body (g : Graph α) (s : St α) (node : α) (below : List α) : St α :=
  let start := (s.checked node).getD 0   -- `checked[node]`: operator[] value-initialises to 0
  match scan node s.checked start ((g.outs node).drop start) with
  | (ch, some t) => { checked := ch, stack := t :: node :: below, res := s.res }
  | (ch, none)   => { checked := ch, stack := below, res := node :: s.res }

/-- What a call to `topSort` can do. -/
inductive Outcome (α : Type) where
  | ok (order : List α)
  | assertFail        -- one of the assertions of lines 59-60
  | diverged          -- the fuel below ran out (proved impossible)

/-- The while loop (utils.cpp:39-58) followed by the assertions and the return (lines 59-61).
`fuel` only makes the definition total; `Outcome.diverged` is proved unreachable. -/
def loop (g : Graph α) : (fuel : Nat) → St α → Outcome α
  | 0, _ => .diverged
  | fuel + 1, s =>
    match s.stack with
    | [] => if g.nodes.length - s.res.length = 0 then .ok s.res else .assertFail
    | node :: below =>
      if g.nodes.length - s.res.length > 0 then
        loop g fuel (body g s node below)
      else .assertFail            -- i == 0 but the stack is not empty: line 59

/-- `dfcxx::topSort` (utils.cpp:25-62). -/
def topSort (g : Graph α) : Outcome α :=
  loop g (2 * g.nodes.length + 1) (initSt g)

end Verif.TopSort
