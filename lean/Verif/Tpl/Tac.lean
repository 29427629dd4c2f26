import Verif.Tpl.Model
import Mathlib.Data.List.Basic
/-
A tactic for `parse text.toList = some nodes` with a constant text: the texts are replaced by the lists of their characters, then the kernel computes.
-/
namespace Verif.Tpl
open Lean Elab Tactic Meta

/-- A proof of `lit.toList = [characters]`, for the literal itself or a constant that stands for it. -/
def toListProof (s : Expr) (str : String) : MetaM (Expr × Expr) := do
  let l := toExpr str.toList
  let str' := mkApp (mkConst ``String.ofList) l
  let h1 := mkApp2 (mkConst ``Eq.refl [1]) (mkConst ``String) str'
  let h1 := mkExpectedPropHint h1 (mkApp3 (mkConst ``Eq [1]) (mkConst ``String) s str')
  let h2 ← mkCongrArg (mkConst ``String.toList) h1
  return (l, ← mkEqTrans h2 (mkApp (mkConst ``String.toList_ofList) l))

/-- The literals of which `e` takes the characters. -/
partial def literalsOf (e : Expr) (acc : List String) : List String :=
  match e with
  | .app (.const ``String.toList _) (.lit (.strVal s)) => if acc.contains s then acc else s :: acc
  | .app f a => literalsOf a (literalsOf f acc)
  | .mdata _ b => literalsOf b acc
  | _ => acc

/-- Closes `f (String.toList t) = some c` for constants `t`, that stands for a literal, and `c`. -/
elab "kernel_parse" : tactic => do
  let g ← getMainGoal
  let t ← instantiateMVars (← g.getType)
  let some (ty, lhs, rhs) := t.eq? | throwError "not an equation"
  let .app f a := lhs | throwError "not an application"
  let .app (.const ``String.toList _) s := a | throwError "not a text"
  let some v ← delta? s | throwError "not a constant"
  let .lit (.strVal str) := v | throwError "not a literal"
  let (l, h3) ← toListProof s str
  let h4 ← mkCongrArg f h3
  -- the right-hand side
  let .app so c := rhs | throwError "not some"
  let some c' ← delta? c | throwError "not a constant"
  let mut e : Expr := .app so c'
  let mut hr : Expr := mkApp2 (mkConst ``Eq.refl [1]) ty rhs
  hr := mkExpectedPropHint hr (mkApp3 (mkConst ``Eq [1]) ty rhs e)
  for lit in literalsOf e [] do
    let tgt := Expr.app (mkConst ``String.toList) (.lit (.strVal lit))
    let (cl, hl) ← toListProof (.lit (.strVal lit)) lit
    let body := e
    let m ← withLocalDeclD `x (mkApp (mkConst ``List [0]) (mkConst ``Char)) fun x =>
      mkLambdaFVars #[x] (body.replace fun y => if y == tgt then some x else none)
    let h ← mkCongrArg m hl
    let e' := (Expr.app m cl).headBeta
    let h := mkExpectedPropHint h (mkApp3 (mkConst ``Eq [1]) ty e e')
    hr := mkApp6 (mkConst ``Eq.trans [1]) ty rhs e e' hr h
    e := e'
  let h5 := mkApp2 (mkConst ``Eq.refl [1]) ty (.app f l)
  let h5 := mkExpectedPropHint h5 (mkApp3 (mkConst ``Eq [1]) ty (.app f l) e)
  let hl := mkApp6 (mkConst ``Eq.trans [1]) ty lhs (.app f l) e h4 h5
  let hs ← mkEqSymm hr
  g.assign (mkApp6 (mkConst ``Eq.trans [1]) ty lhs e rhs hl hs)

/-- Closes `a = b` if the kernel finds that both sides compute to the same. -/
elab "kernel_rfl" : tactic => do
  let g ← getMainGoal
  let t ← instantiateMVars (← g.getType)
  let some (ty, _, rhs) := t.eq? | throwError "not an equation"
  let u ← getLevel ty
  g.assign (mkExpectedPropHint (mkApp2 (mkConst ``Eq.refl [u]) ty rhs) t)

end Verif.Tpl
