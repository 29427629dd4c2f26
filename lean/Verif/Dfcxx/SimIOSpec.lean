import Verif.Dfcxx.Sim
import Mathlib.Data.List.Forall2
/-
Specification side for C19-C23, C51: the documented input format (docs/simulation.md lines 5-28) and the
meaning of a binary value text.  Independent of the reader.
-/
namespace Verif.Dfcxx

/-- Character `c` is a hexadecimal digit of value `d`. -/
def IsHexDigit (c : Char) (d : Nat) : Prop :=
  ("0123456789abcdef".toList[d]? = some c) ∨ ("0123456789ABCDEF".toList[d]? = some c)

/-- Positional base-16 value of a digit string. -/
inductive HexNum : List Char → Nat → Prop
  | nil : HexNum [] 0
  | snoc {cs n c d} (h : HexNum cs n) (hd : IsHexDigit c d) : HexNum (cs ++ [c]) (16 * n + d)

/-- A text for the 64-bit value `v`: digits, with or without `0x` (or `0X`). -/
def ValueText (txt : List Char) (v : Word) : Prop :=
  ∃ ds, ds ≠ [] ∧ HexNum ds v.toNat ∧ (txt = ds ∨ txt = '0' :: 'x' :: ds ∨ txt = '0' :: 'X' :: ds)

/-- One simulation step's data: assignments in file order. -/
abbrev Block := List (String × Word)

/-- `name value` separated by a single space. -/
def LineOf (a : String × Word) (l : List Char) : Prop :=
  a.1 ≠ "" ∧ (' ' ∉ a.1.toList) ∧ ('\n' ∉ a.1.toList) ∧ ∃ txt, ValueText txt a.2 ∧ l = a.1.toList ++ ' ' :: txt

/-- Lines of a document: blocks separated by one empty line. -/
inductive Renders : List Block → List (List Char) → Prop
  | last {b ls} (h : List.Forall₂ LineOf b ls) : Renders [b] ls
  | more {b ls doc rest} (h : List.Forall₂ LineOf b ls) (hr : Renders doc rest) :
      Renders (b :: doc) (ls ++ [] :: rest)

/-- The latest value given for a name in a block. -/
def lastValue (b : Block) (nm : String) : Option Word := (b.reverse.find? (fun p => p.1 = nm)).map (·.2)

/-- Inputs of the tick described by block `i`: a name the document never mentions has no value; a name
mentioned elsewhere but not in this block has the value 0. -/
def docTick (doc : List Block) (i : Nat) : TickIn := fun nm =>
  if doc.any (fun b => b.any (fun p => p.1 = nm)) then .ok (((doc[i]?).bind (lastValue · nm)).getD 0)
  else .error .throw

/-- Number written by a string of binary digits, most significant first. -/
def binVal (cs : List Char) : Nat := cs.foldl (fun a c => 2 * a + (if c = '1' then 1 else 0)) 0

/-- `cs` is the `w`-digit binary text of `v` modulo `2^w`. -/
def BinText (cs : List Char) (w : Nat) (v : Word) : Prop :=
  cs.length = w ∧ (∀ c ∈ cs, c = '0' ∨ c = '1') ∧ binVal cs = v.toNat % 2 ^ w

end Verif.Dfcxx
