import Verif.Sched.LpModel
import Verif.Sched.Spec
/- What it means to solve a linear program; independent of scheduling. -/
namespace Verif.Sched

/-- Value of the left-hand side. -/
def LpCons.lhs (c : LpCons) (x : Nat → ℚ) : ℚ := (c.terms.map fun t => t.2 * x t.1).sum

def LpCons.Holds (c : LpCons) (x : Nat → ℚ) : Prop :=
  match c.op with
  | .le => c.lhs x ≤ c.rhs
  | .ge => c.rhs ≤ c.lhs x
  | .eq => c.lhs x = c.rhs

/-- A feasible point: all constraints, and lp_solve's default lower bound 0 for every column. -/
structure Feasible (st : LpState) (x : Nat → ℚ) : Prop where
  cons   : ∀ c ∈ st.cons, c.Holds x
  nonneg : ∀ v, 1 ≤ v → v < st.col → 0 ≤ x v

/-- The objective: the sum of the delta variables, all with coefficient 1. -/
def objective (st : LpState) (x : Nat → ℚ) : ℚ := (st.deltas.map x).sum

def Optimal (st : LpState) (x : Nat → ℚ) : Prop :=
  Feasible st x ∧ ∀ y, Feasible st y → objective st x ≤ objective st y

/-- An extreme point of the feasible region: not the midpoint of two feasible points that differ on a column.
The simplex method answers with such points. -/
def Extreme (st : LpState) (x : Nat → ℚ) : Prop :=
  Feasible st x ∧ ∀ y z, Feasible st y → Feasible st z → (∀ v, 1 ≤ v → v < st.col → x v = (y v + z v) / 2) →
    ∀ v, 1 ≤ v → v < st.col → y v = x v

/-- All columns are whole numbers. -/
def Integral (st : LpState) (x : Nat → ℚ) : Prop := ∀ v, 1 ≤ v → v < st.col → ∃ z : ℤ, x v = z

/-- The start times in an answer. -/
def startTimes (P : Prog) (st : LpState) (x : Nat → ℚ) (n : Nat) : ℚ := 
  if n < P.size ∧ (P.defn n).isNode then x (st.nodeMap n) else 0

end Verif.Sched
