import Verif.TopSort.Model
/-
Independent vocabulary for the ordering properties (C01, C02): edges, reachability, acyclicity and
"comes before" -- none of these mention the algorithm.
-/
namespace Verif.TopSort

variable {α : Type}

/-- There is a channel from `a` to `b`. -/
def Graph.Edge (g : Graph α) (a b : α) : Prop := b ∈ g.outs a

/-- `b` can be reached from `a` along one or more channels. -/
inductive Graph.Path (g : Graph α) : α → α → Prop
  | single {a b} : g.Edge a b → g.Path a b
  | tail {a b c} : g.Path a b → g.Edge b c → g.Path a c

/-- `b` is reachable from a start node. -/
inductive Graph.Reach (g : Graph α) : α → Prop
  | start {a} : a ∈ g.starts → g.Reach a
  | step {a b} : g.Reach a → g.Edge a b → g.Reach b

def Graph.Acyclic (g : Graph α) : Prop := ∀ a, ¬ g.Path a a

/-- Structural facts about a `dfcxx::Graph`: no node is listed twice (they are sets), start nodes are nodes,
channels lead to nodes of the graph. -/
structure Graph.WF (g : Graph α) : Prop where
  nodes_nodup  : g.nodes.Nodup
  starts_nodup : g.starts.Nodup
  starts_sub   : ∀ a ∈ g.starts, a ∈ g.nodes
  outs_sub     : ∀ a ∈ g.nodes, ∀ b ∈ g.outs a, b ∈ g.nodes

/-- Inputs and constants read nothing: no channel ends in a start node. -/
def Graph.StartsAreSources (g : Graph α) : Prop := ∀ a b, g.Edge a b → b ∉ g.starts

/-- `a` occurs strictly before `b` in `l`. -/
def Before (l : List α) (a b : α) : Prop := ∃ l₁ l₂ l₃, l = l₁ ++ a :: l₂ ++ b :: l₃

end Verif.TopSort
