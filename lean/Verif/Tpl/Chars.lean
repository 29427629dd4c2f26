import Lean
/-
`chars% "text"`: the list of the characters of a text, written out.
-/
namespace Verif.Tpl
open Lean

elab "chars% " s:str : term => return toExpr s.getString.toList

end Verif.Tpl
