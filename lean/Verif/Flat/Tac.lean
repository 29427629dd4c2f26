import Verif.Flat.Top
/-
A tactic for proofs about the constructors of kernels: after a statement everything known before it still holds.
-/
namespace Verif.Flat
open Lean Elab Tactic Meta

/-- `carry hg hx`: replaces every assertion `h` about the old state by `h.mono hg hx`. -/
elab "carry " g:ident x:ident : tactic => withMainContext do
  let mut names : Array (Name × Name) := #[]
  let env ← getEnv
  for d in ← getLCtx do
    if d.isImplementationDetail then continue
    if d.userName.hasMacroScopes then continue
    let t ← instantiateMVars d.type
    if let some c := t.getAppFn.constName? then
      if c == ``Verif.Dfcxx.World.IsConst then names := names.push (d.userName, ``IsConst.mono)
      else if (`Verif.Flat).isPrefixOf c && env.contains (c ++ `mono) then names := names.push (d.userName, c ++ `mono)
  for (n, l) in names do
    let h := mkIdent n
    let f := mkIdent l
    evalTactic (← `(tactic| try replace $h:ident := $f $h $g $x))

/-- `fstep rule with n h`: the statement establishes `h` about its result `n`; `hg` is the assertion about the state. -/
macro "fstep " r:term " with " n:ident h:ident : tactic =>
  let hg := mkIdent `hg
  `(tactic| (refine FDoes.bind $r fun $n w' g' s' $h => ?_; carry $hg:ident s'; clear s'; clear $hg:ident; have $hg:ident := g'; clear g'))

end Verif.Flat
