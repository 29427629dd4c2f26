import Verif.Text.Lex
/-
The DFCIR text format: the printers and the parsers of the operations and types of the dialect.

Sources: /repo/src/model/dfcir/lib/dfcir/DFCIROperations.cpp (custom `parse`/`print`), /repo/src/model/dfcir/include/dfcir/DFCIROperations.td (custom
formats of the unary and binary operators, `assemblyFormat` of the rest), /repo/src/model/dfcir/include/dfcir/DFCIRTypes.td (types).  Code generated from
an `assemblyFormat`, and MLIR's own printing and parsing of attributes, attribute dictionaries, values, regions and `module`, are modelled by hand.

Simplifications: discardable attributes, float constants (`FloatAttr`), location and alias syntax, several kernels in a module and named modules are not
modelled (the parser rejects them).  A value is identified by its number: the n-th operation with a result defines value n.
-/
namespace Verif.Text

/-! ### Abstract syntax -/

/-- Signedness of builtin integer types. -/
inductive Sign where | signless | signed | unsigned
  deriving DecidableEq, Repr

/-- DFCIRTypes.td:94-139: types with one type parameter. -/
inductive Wrap where | complex | stream | scalar | const
  deriving DecidableEq, Repr

/-- DFCIRTypes.td:46-139 and the builtin integer types. -/
inductive Ty where
  | fixed (sign : Bool) (int frac : Nat)
  | float (exp frac : Nat)
  | rawbits (bits : Nat)
  | wrap (w : Wrap) (t : Ty)
  | int (s : Sign) (width : Nat)
  deriving DecidableEq, Repr

/-- `IntegerAttr`: the type and the bits of the value. -/
structure IntAttr where
  sign : Sign
  width : Nat
  bits : Nat
  deriving DecidableEq, Repr

/-- DFCIROperations.td:245, 461: operators with one operand and a latency. -/
inductive Sched1 where | neg | cast
  deriving DecidableEq, Repr

/-- DFCIROperations.td:393-415: operators with two operands and a latency. -/
inductive Sched2 where | less | lessEq | greater | greaterEq | eq | notEq | add | sub | mul | rem | mod | div
  deriving DecidableEq, Repr

/-- DFCIROperations.td:417-448, 475-484. -/
inductive Comb2 where | and | or | xor | cat
  deriving DecidableEq, Repr

/-- DFCIROperations.td:486-501. -/
inductive Shift where | shl | shr
  deriving DecidableEq, Repr

/-- The operations of the dialect (DFCIROperations.td:37-511), but `kernel`. Value operands are value numbers; `res` is the type of the result; for
inputs, outputs, constants and counters `ty` is the type inside the wrapper. -/
inductive Stmt where
  | scalarInput (ty : Ty) (name : List Char)
  | scalarOutput (ty : Ty) (name : List Char) (src : Option Nat)
  | input (ty : Ty) (name : List Char) (ctrl : Option Nat)
  | output (ty : Ty) (name : List Char) (ctrl src : Option Nat)
  | constant (ty : Ty) (value : IntAttr)
  | connect (dest src : Nat)
  | latency (lat : IntAttr) (x : Nat) (res : Ty)
  | sched1 (k : Sched1) (lat : IntAttr) (x : Nat) (res : Ty)
  | sched2 (k : Sched2) (lat : IntAttr) (x y : Nat) (res : Ty)
  | comb2 (k : Comb2) (x y : Nat) (res : Ty)
  | not (x : Nat) (res : Ty)
  | offset (x : Nat) (o : IntAttr) (res : Ty)
  | convert (x : Nat) (res : Ty)
  | mux (c : Nat) (vars : List Nat) (res : Ty)
  | bits (x : Nat) (left right : IntAttr) (res : Ty)
  | shift (k : Shift) (x : Nat) (n : IntAttr) (res : Ty)
  | counter (ty : Ty) (max : Nat)
  deriving DecidableEq, Repr

/-- The type of the result, if there is one. -/
def Stmt.res : Stmt → Option Ty
  | .scalarInput ty _ | .scalarOutput ty _ _ => some (.wrap .scalar ty)
  | .input ty _ _ | .output ty _ _ _ | .counter ty _ => some (.wrap .stream ty)
  | .constant ty _ => some (.wrap .const ty)
  | .connect _ _ => none
  | .latency _ _ t | .sched1 _ _ _ t | .sched2 _ _ _ _ t | .comb2 _ _ _ t | .not _ t | .offset _ _ t | .convert _ t | .mux _ _ t | .bits _ _ _ t
  | .shift _ _ _ t => some t

/-- A module with one kernel. -/
structure File where
  name : List Char
  body : List Stmt
  deriving DecidableEq, Repr

/-- Types of the values defined by a list of operations. -/
def valTys (l : List Stmt) : List Ty := l.filterMap Stmt.res

/-! ### Names -/

def Wrap.name : Wrap → List Char
  | .complex => "dfcir.complex".toList
  | .stream => "dfcir.stream".toList
  | .scalar => "dfcir.scalar".toList
  | .const => "dfcir.const".toList

def Sign.name : Sign → List Char
  | .signless => ['i']
  | .signed => ['s', 'i']
  | .unsigned => ['u', 'i']

def Sched1.name : Sched1 → List Char
  | .neg => "dfcir.neg".toList
  | .cast => "dfcir.cast".toList

/-- DFCIROperations.td:393-415; the remainder operator is spelled `red` (line 411). -/
def Sched2.name : Sched2 → List Char
  | .less => "dfcir.less".toList
  | .lessEq => "dfcir.lessEq".toList
  | .greater => "dfcir.greater".toList
  | .greaterEq => "dfcir.greaterEq".toList
  | .eq => "dfcir.eq".toList
  | .notEq => "dfcir.notEq".toList
  | .add => "dfcir.add".toList
  | .sub => "dfcir.sub".toList
  | .mul => "dfcir.mul".toList
  | .rem => "dfcir.red".toList
  | .mod => "dfcir.mod".toList
  | .div => "dfcir.div".toList

def Comb2.name : Comb2 → List Char
  | .and => "dfcir.and".toList
  | .or => "dfcir.or".toList
  | .xor => "dfcir.xor".toList
  | .cat => "dfcir.cat".toList

def Shift.name : Shift → List Char
  | .shl => "dfcir.shl".toList
  | .shr => "dfcir.shr".toList

/-! ### Printer -/

def kw (s : List Char) : Piece := .tok (.id s)
def pc (c : Char) : Piece := .tok (.p c)
def sp : Piece := .ws [' ']
def numP (n : Nat) : Piece := .tok (.num (Nat.toDigits 10 n))
def strP (s : List Char) : Piece := .tok (.str s)

/-- A value: `%` and its number. -/
def valP (v : Nat) : Piece := .tok (.val (Nat.toDigits 10 v))

def boolName (b : Bool) : List Char := if b then "true".toList else "false".toList

/-- Types: `!dfcir.` mnemonic and the parameters in angle brackets (assembly formats of DFCIRTypes.td); builtin integer types by their keyword. -/
def tyP : Ty → List Piece
  | .fixed s i f => [.tok (.ty "dfcir.fixed".toList), pc '<', kw (boolName s), pc ',', sp, numP i, pc ',', sp, numP f, pc '>']
  | .float e f => [.tok (.ty "dfcir.float".toList), pc '<', numP e, pc ',', sp, numP f, pc '>']
  | .rawbits b => [.tok (.ty "dfcir.rawbits".toList), pc '<', numP b, pc '>']
  | .wrap w t => [.tok (.ty w.name), pc '<'] ++ tyP t ++ [pc '>']
  | .int s w => [kw (s.name ++ Nat.toDigits 10 w)]

/-- The bits as a two's complement number. -/
def IntAttr.sext (a : IntAttr) : Int := if 2 * a.bits < 2 ^ a.width then a.bits else (a.bits : Int) - 2 ^ a.width

/-- The number an attribute prints: unsigned types print unsigned, the others signed. -/
def IntAttr.number (a : IntAttr) : Int := if a.sign = .unsigned then a.bits else a.sext

def intP (v : Int) : List Piece := if v < 0 then [pc '-', numP v.natAbs] else [numP v.natAbs]

/-- `printAttribute` of an `IntegerAttr`: `i1` attributes print as `true` or `false`, the others with their type. -/
def attrP (a : IntAttr) : List Piece :=
  if a.sign = .signless ∧ a.width = 1 then [kw (boolName (a.bits ≠ 0))]
  else intP a.number ++ [sp, pc ':', sp] ++ tyP (.int a.sign a.width)

/-- Type of a value. -/
def tyOf (tys : List Ty) (v : Nat) : Ty := tys.getD v (.rawbits 0)

/-- `%v : type`. -/
def argP (tys : List Ty) (v : Nat) : List Piece := [valP v, sp, pc ':', sp] ++ tyP (tyOf tys v)

/-- DFCIROperations.td:228-236, 345-353: the latency in brackets; a latency whose low 32 bits are those of -1 prints as `?`. -/
def bracketP (lat : IntAttr) : List Piece :=
  if lat.sext % 2 ^ 32 = 2 ^ 32 - 1 then [pc '[', pc '?', pc ']', sp] else [pc '['] ++ attrP lat ++ [pc ']', sp]

/-- `{latency = …}`: nothing is elided from the dictionary. -/
def latDictP (lat : IntAttr) : List Piece := [sp, pc '{', kw "latency".toList, sp, pc '=', sp] ++ attrP lat ++ [pc '}']

/-- `<ty> ("name"`. -/
def headP (ty : Ty) (name : List Char) : List Piece := [pc '<'] ++ tyP ty ++ [pc '>', sp, pc '(', strP name]

/-- The optional control operand of inputs and outputs (DFCIROperations.cpp:188-193, 290-295). -/
def ctrlP (tys : List Ty) : Option Nat → List Piece
  | none => []
  | some v => [pc ',', sp] ++ argP tys v

/-- The optional source of outputs (DFCIROperations.cpp:117-122, 297-302). -/
def srcP (tys : List Ty) : Option Nat → List Piece
  | none => []
  | some v => [sp, pc '<', pc '=', sp] ++ argP tys v

def count (o : Option Nat) : Nat := if o.isSome then 1 else 0

/-- A multiplexed value: its type is printed only if it differs from the result's (DFCIROperations.cpp:361-367). -/
def muxVarP (tys : List Ty) (res : Ty) (v : Nat) : List Piece :=
  [pc ',', sp, valP v] ++ (if tyOf tys v = res then [] else [pc ':', sp] ++ tyP (tyOf tys v))

/-- What `print` of the operation writes, after its name.  DFCIROperations.cpp: scalarInput 42-51, scalarOutput 111-126, input 183-198, output 285-307,
mux 355-370, constant 395-403, offset 447-455, latency 497-503, simpleCounter 544-553; DFCIROperations.td: connect 117, unary 228-241, binary 345-359,
convert 377 (a result of a fixed C++ type prints without its name), and/or/xor/not 423-456, bits 470, cat 481, shifts 493. -/
def argsP (tys : List Ty) : Stmt → List Piece
  | .scalarInput ty nm => headP ty nm ++ [pc ')']
  | .scalarOutput ty nm src => headP ty nm ++ [pc ')'] ++ srcP tys src
  | .input ty nm ctrl => headP ty nm ++ ctrlP tys ctrl ++ [pc ')']
  | .output ty nm ctrl src => headP ty nm ++ ctrlP tys ctrl ++ [pc ')'] ++ srcP tys src ++
      [sp, pc '{', kw "operandSegmentSizes".toList, sp, pc '=', sp, kw "array".toList, pc '<', kw "i32".toList, pc ':', sp, numP (count ctrl), pc ',', sp,
        numP (count src), pc '>', pc '}']
  | .constant ty v => [pc '<'] ++ tyP ty ++ [pc '>', sp] ++ attrP v
  | .connect d s => [pc '('] ++ argP tys d ++ [pc ',', sp] ++ argP tys s ++ [pc ')']
  | .latency l x res => [pc '['] ++ attrP l ++ [pc ']', sp, pc '('] ++ argP tys x ++ [pc ')', sp, pc ':', sp] ++ tyP res ++ latDictP l
  | .sched1 _ l x res => bracketP l ++ [pc '('] ++ argP tys x ++ [pc ')', sp, pc ':', sp] ++ tyP res ++ latDictP l
  | .sched2 _ l x y res => bracketP l ++ [pc '('] ++ argP tys x ++ [pc ',', sp] ++ argP tys y ++ [pc ')', sp, pc ':', sp] ++ tyP res ++ latDictP l
  | .comb2 _ x y res => [pc '('] ++ argP tys x ++ [pc ',', sp] ++ argP tys y ++ [pc ')', sp, pc ':', sp] ++ tyP res
  | .not x res => [pc '('] ++ argP tys x ++ [pc ')', sp, pc ':', sp] ++ tyP res
  | .offset x o res => [pc '(', valP x, pc ',', sp] ++ attrP o ++ [pc ')', sp, pc ':', sp] ++ tyP res
  | .convert x res => [pc '('] ++ argP tys x ++ [pc ')', sp, pc ':', sp] ++
      (match res with
       | .wrap .stream t => [pc '<'] ++ tyP t ++ [pc '>']
       | t => tyP t)
  | .mux c vs res => [pc '(', valP c, pc ':', sp] ++ tyP (tyOf tys c) ++ vs.flatMap (muxVarP tys res) ++ [pc ')', sp, pc ':', sp] ++ tyP res
  | .bits x l r res => [pc '('] ++ argP tys x ++ [pc ',', sp] ++ attrP l ++ [pc ',', sp] ++ attrP r ++ [pc ')', sp, pc ':', sp] ++ tyP res
  | .shift _ x n res => [pc '('] ++ argP tys x ++ [pc ',', sp] ++ attrP n ++ [pc ')', sp, pc ':', sp] ++ tyP res
  | .counter ty m => [pc '<'] ++ tyP ty ++ [pc '>', sp, pc '(', valP m, pc ':', sp] ++ tyP (tyOf tys m) ++ [pc ')']

/-- Name of the operation. -/
def Stmt.name : Stmt → List Char
  | .scalarInput _ _ => "dfcir.scalarInput".toList
  | .scalarOutput _ _ _ => "dfcir.scalarOutput".toList
  | .input _ _ _ => "dfcir.input".toList
  | .output _ _ _ _ => "dfcir.output".toList
  | .constant _ _ => "dfcir.constant".toList
  | .connect _ _ => "dfcir.connect".toList
  | .latency _ _ _ => "dfcir.latency".toList
  | .sched1 k _ _ _ => k.name
  | .sched2 k _ _ _ _ => k.name
  | .comb2 k _ _ _ => k.name
  | .not _ _ => "dfcir.not".toList
  | .offset _ _ _ => "dfcir.offset".toList
  | .convert _ _ => "dfcir.convert".toList
  | .mux _ _ _ => "dfcir.mux".toList
  | .bits _ _ _ _ => "dfcir.bits".toList
  | .shift k _ _ _ => k.name
  | .counter _ _ => "dfcir.simpleCounter".toList

/-- `%n = ` before operations with a result. -/
def resP (next : Nat) : Option Ty → List Piece
  | none => []
  | some _ => [valP next, sp, pc '=', sp]

/-- The operations of a block, one per line. -/
def blockP (tys : List Ty) : List Stmt → List Piece
  | [] => []
  | s :: l => [.ws "    ".toList] ++ resP tys.length s.res ++ [kw s.name] ++ argsP tys s ++ [.ws ['\n']] ++ blockP (tys ++ s.res.toList) l

/-- `module->print`: the module with its kernel (DFCIROperations.td:24-35). -/
def fileP (f : File) : List Piece :=
  [kw "module".toList, sp, pc '{', .ws "\n  ".toList, kw "dfcir.kernel".toList, sp, strP f.name, sp, pc '{', .ws ['\n']] ++ blockP [] f.body ++
  [.ws "  ".toList, pc '}', .ws ['\n'], pc '}', .ws ['\n']]

/-- The text of a module. -/
def print (f : File) : List Char := render (fileP f)

/-! ### Parser -/

/-- Parsers: consume tokens or fail. -/
def P (α : Type) : Type := List Tok → Option (α × List Tok)

instance : Monad P where
  pure a := fun ts => some (a, ts)
  bind x f := fun ts => match x ts with
    | some (a, r) => f a r
    | none => none

def fail {α : Type} : P α := fun _ => none

/-- `parseLess`, `parseComma` and so on. -/
def expect (c : Char) : P Unit := fun ts =>
  match ts with
  | .p d :: r => if d = c then some ((), r) else none
  | _ => none

/-- `parseOptionalComma` and so on. -/
def opt (c : Char) : P Bool := fun ts =>
  match ts with
  | .p d :: r => if d = c then some (true, r) else some (false, ts)
  | _ => some (false, ts)

/-- One or more items separated by commas. -/
def sepBy1F {α : Type} (p : P α) : Nat → P (List α)
  | 0 => fail
  | n + 1 => do
    let a ← p
    if ← opt ',' then
      let l ← sepBy1F p n
      return a :: l
    else return [a]

def sepBy1 {α : Type} (p : P α) : P (List α) := fun ts => sepBy1F p ts.length ts

/-- An `unsigned` parameter of a type. -/
def pU32 : P Nat := fun ts =>
  match ts with
  | .num ds :: r => if Nat.ofDigitChars 10 ds 0 < 2 ^ 32 then some (Nat.ofDigitChars 10 ds 0, r) else none
  | _ => none

/-- A `bool` parameter of a type: `true`, `false`, `1` or `0` (`parseInteger`). -/
def pBool : P Bool := fun ts =>
  match ts with
  | .id s :: r => if s = "true".toList then some (true, r) else if s = "false".toList then some (false, r) else none
  | .num ds :: r => if Nat.ofDigitChars 10 ds 0 < 2 then some (Nat.ofDigitChars 10 ds 0 == 1, r) else none
  | _ => none

/-- The width of an integer type (at most 24 bits). -/
def mkIntTy (s : Sign) (ds : List Char) : Option Ty :=
  if ds ≠ [] ∧ ds.all Char.isDigit = true ∧ Nat.ofDigitChars 10 ds 0 < 2 ^ 24 then some (.int s (Nat.ofDigitChars 10 ds 0)) else none

def intTy : List Char → Option Ty
  | 'i' :: ds => mkIntTy .signless ds
  | 's' :: 'i' :: ds => mkIntTy .signed ds
  | 'u' :: 'i' :: ds => mkIntTy .unsigned ds
  | _ => none

def wrapOf (s : List Char) : Option Wrap :=
  if s = Wrap.complex.name then some .complex
  else if s = Wrap.stream.name then some .stream
  else if s = Wrap.scalar.name then some .scalar
  else if s = Wrap.const.name then some .const
  else none

/-- `parseType` (the generated parsers of DFCIRTypes.td). -/
def pTypeF : Nat → P Ty
  | 0 => fail
  | n + 1 => fun ts =>
    match ts with
    | .ty s :: r =>
      if s = "dfcir.fixed".toList then
        (do expect '<'; let b ← pBool; expect ','; let i ← pU32; expect ','; let f ← pU32; expect '>'; return Ty.fixed b i f : P Ty) r
      else if s = "dfcir.float".toList then (do expect '<'; let e ← pU32; expect ','; let f ← pU32; expect '>'; return Ty.float e f : P Ty) r
      else if s = "dfcir.rawbits".toList then (do expect '<'; let b ← pU32; expect '>'; return Ty.rawbits b : P Ty) r
      else match wrapOf s with
        | some w => (do expect '<'; let t ← pTypeF n; expect '>'; return Ty.wrap w t : P Ty) r
        | none => none
    | .id s :: r => (intTy s).map (·, r)
    | _ => none

def pType : P Ty := fun ts => pTypeF ts.length ts

/-- `parseCustomTypeWithFallback` for a type of a known class: the full type, or its parameters only. -/
def pWrapTy (w : Wrap) : P Ty := fun ts =>
  match ts with
  | .ty _ :: _ => (do
      let t ← pType
      match t with
      | .wrap w' x => if w' = w then pure (Ty.wrap w x) else fail
      | _ => fail : P Ty) ts
  | _ => (do expect '<'; let t ← pType; expect '>'; return Ty.wrap w t : P Ty) ts

/-- The bits of an integer literal of a given type (MLIR's `buildAttributeAPInt`): the literal must fit; a negative one must have its sign bit set, a
positive one of a signed type must not; unsigned types take no minus sign. -/
def readInt (s : Sign) (w : Nat) (neg : Bool) (n : Nat) : Option Nat :=
  if 2 ^ w ≤ n then none
  else if neg then
    if s = .unsigned ∨ w = 0 ∨ (2 ^ w - n) % 2 ^ w < 2 ^ (w - 1) then none else some ((2 ^ w - n) % 2 ^ w)
  else if s = .signed ∧ 0 < w ∧ 2 ^ (w - 1) ≤ n then none else some n

/-- The rest of an integer attribute after its digits: the type is `i64` unless given. -/
def pIntTail (neg : Bool) (ds : List Char) : P IntAttr := do
  let ty ← if ← opt ':' then pType else pure (.int .signless 64)
  match ty with
  | .int s w => match readInt s w neg (Nat.ofDigitChars 10 ds 0) with
    | some b => return ⟨s, w, b⟩
    | none => fail
  | _ => fail

/-- `parseAttribute` for integer attributes. -/
def pIntAttr : P IntAttr := fun ts =>
  match ts with
  | .id s :: r => if s = "true".toList then some (⟨.signless, 1, 1⟩, r) else if s = "false".toList then some (⟨.signless, 1, 0⟩, r) else none
  | .p '-' :: .num ds :: r => pIntTail true ds r
  | .num ds :: r => pIntTail false ds r
  | _ => none

/-- Values in attribute dictionaries. -/
inductive AttrV where
  | int (a : IntAttr)
  | arr (l : List Int)
  deriving DecidableEq, Repr

def pInt : P Int := fun ts =>
  match ts with
  | .p '-' :: .num ds :: r => some (-(Nat.ofDigitChars 10 ds 0 : Int), r)
  | .num ds :: r => some ((Nat.ofDigitChars 10 ds 0 : Int), r)
  | _ => none

/-- An attribute in a dictionary: `array<i32: …>` or an integer. -/
def pAttrV : P AttrV := fun ts =>
  match ts with
  | .id s :: r =>
    if s = "array".toList then
      (do
        expect '<'
        let ty ← pType
        if ty = .int .signless 32 then
          if ← opt ':' then
            let l ← sepBy1 pInt
            expect '>'
            return AttrV.arr l
          else
            expect '>'
            return AttrV.arr []
        else fail : P AttrV) r
    else (do let a ← pIntAttr; return AttrV.int a : P AttrV) ts
  | _ => (do let a ← pIntAttr; return AttrV.int a : P AttrV) ts

def pKey : P (List Char) := fun ts =>
  match ts with
  | .id s :: r | .str s :: r => some (s, r)
  | _ => none

def pEntry : P (List Char × AttrV) := do
  let k ← pKey
  expect '='
  let v ← pAttrV
  return (k, v)

/-- `parseOptionalAttrDict`; keys must differ. -/
def pDict : P (List (List Char × AttrV)) := do
  if ← opt '{' then
    if ← opt '}' then return []
    else
      let l ← sepBy1 pEntry
      expect '}'
      if (l.map (·.1)).Nodup then return l else fail
  else return []

/-- No attributes besides those of the format. -/
def pNoDict : P Unit := do
  let d ← pDict
  if d = [] then return () else fail

/-- Named values in scope, in the order of their definition. -/
abbrev Env := List (List Char × Ty)

def lookup : Nat → Env → List Char → Option (Nat × Ty)
  | _, [], _ => none
  | k, (n, t) :: r, s => if n = s then some (k, t) else lookup (k + 1) r s

/-- `parseOperand`. -/
def pOperand : P (List Char) := fun ts =>
  match ts with
  | .val s :: r => some (s, r)
  | _ => none

/-- `resolveOperand`: the value must be defined before its use (the verifier rejects uses before definitions in a kernel's region) with the stated
type. -/
def resolve (env : Env) (s : List Char) (t : Ty) : P Nat :=
  match lookup 0 env s with
  | some (v, t') => if t' = t then pure v else fail
  | none => fail

/-- `%v : type`. -/
def pArg (env : Env) : P Nat := do
  let s ← pOperand
  expect ':'
  let t ← pType
  resolve env s t

/-- An optional operand and an optional type; `resolveOperands` fails unless both or neither are present. -/
def pOptArg (env : Env) : P (Option Nat) := fun ts =>
  match ts with
  | .val _ :: _ => (do let v ← pArg env; return some v : P (Option Nat)) ts
  | .p ':' :: r => match r with
    | .ty _ :: _ => none
    | .id s :: _ => if (intTy s).isSome then none else some (none, r)
    | _ => some (none, r)
  | _ => none

def pStr : P (List Char) := fun ts =>
  match ts with
  | .str s :: r => some (s, r)
  | _ => none

/-- `<ty> ("name"` (DFCIROperations.cpp:20-32). -/
def pHead : P (Ty × List Char) := do
  expect '<'
  let ty ← pType
  expect '>'
  expect '('
  let s ← pStr
  return (ty, s)

/-- `, %ctrl : type` (DFCIROperations.cpp:154-171, 229-246). -/
def pCtrl (env : Env) : P (Option Nat) := do
  if ← opt ',' then pOptArg env else return none

/-- `<= %src : type` (DFCIROperations.cpp:82-101, 250-269). -/
def pSrc (env : Env) : P (Option Nat) := do
  if ← opt '<' then
    expect '='
    pOptArg env
  else return none

/-- The latency in brackets (DFCIROperations.td:185-207, 293-315): `?` stands for -1. -/
def pBracket : P IntAttr := do
  expect '['
  if ← opt '?' then
    expect ']'
    return ⟨.signless, 32, 2 ^ 32 - 1⟩
  else
    let a ← pIntAttr
    expect ']'
    return a

/-- The latency in brackets goes to the operation's properties, the one in the dictionary to its attributes (DFCIROperations.td:204-218, 312-334);
`pick` combines them when the operation is created. -/
def pLatDict (pick : IntAttr → IntAttr → IntAttr) (br : IntAttr) : P IntAttr := do
  let d ← pDict
  match d with
  | [] => return br
  | [(k, .int a)] => if k = "latency".toList then return pick br a else fail
  | _ => fail

/-- A multiplexed value with its optional type (DFCIROperations.cpp:325-336). -/
def pMuxVar : P (List Char × Option Ty) := do
  let s ← pOperand
  if ← opt ':' then
    let t ← pType
    return (s, some t)
  else return (s, none)

def resolveAll (env : Env) (res : Ty) : List (List Char × Option Ty) → P (List Nat)
  | [] => return []
  | (s, t) :: l => do
    let v ← resolve env s (t.getD res)
    let vs ← resolveAll env res l
    return v :: vs

def sched1Of (s : List Char) : Option Sched1 := if s = Sched1.neg.name then some .neg else if s = Sched1.cast.name then some .cast else none

def sched2Of (s : List Char) : Option Sched2 :=
  [Sched2.less, .lessEq, .greater, .greaterEq, .eq, .notEq, .add, .sub, .mul, .rem, .mod, .div].find? fun k => k.name = s

def comb2Of (s : List Char) : Option Comb2 := [Comb2.and, .or, .xor, .cat].find? fun k => k.name = s

def shiftOf (s : List Char) : Option Shift := [Shift.shl, .shr].find? fun k => k.name = s

/-- The operations with custom formats (DFCIROperations.cpp: scalarInput 14-40, scalarOutput 57-109, input 132-181, output 204-283, mux 313-353,
constant 372-393, offset 405-445, latency 457-495, simpleCounter 505-542). -/
def pScalarInput : P Stmt := do
  let h ← pHead
  expect ')'
  pNoDict
  return .scalarInput h.1 h.2

def pScalarOutput (env : Env) : P Stmt := do
  let h ← pHead
  expect ')'
  let s ← pSrc env
  pNoDict
  return .scalarOutput h.1 h.2 s

def pInput (env : Env) : P Stmt := do
  let h ← pHead
  let c ← pCtrl env
  expect ')'
  pNoDict
  return .input h.1 h.2 c

/-- The operand segment sizes are those of the operands parsed (lines 273-276); an attribute of that name in the text must be an array. -/
def pOutput (env : Env) : P Stmt := do
  let h ← pHead
  let c ← pCtrl env
  expect ')'
  let s ← pSrc env
  let d ← pDict
  match d with
  | [] => return .output h.1 h.2 c s
  | [(k, .arr _)] => if k = "operandSegmentSizes".toList ∨ k = "operand_segment_sizes".toList then return .output h.1 h.2 c s else fail
  | _ => fail

def pConstant : P Stmt := do
  expect '<'
  let ty ← pType
  expect '>'
  let v ← pIntAttr
  pNoDict
  return .constant ty v

def pConnect (env : Env) : P Stmt := do
  expect '('
  let d ← pArg env
  expect ','
  let s ← pArg env
  expect ')'
  pNoDict
  return .connect d s

def pLatency (pick : IntAttr → IntAttr → IntAttr) (env : Env) : P Stmt := do
  expect '['
  let a ← pIntAttr
  expect ']'
  expect '('
  let x ← pArg env
  expect ')'
  expect ':'
  let t ← pType
  let l ← pLatDict pick a
  return .latency l x t

def pSched1 (pick : IntAttr → IntAttr → IntAttr) (env : Env) (k : Sched1) : P Stmt := do
  let a ← pBracket
  expect '('
  let x ← pArg env
  expect ')'
  expect ':'
  let t ← pType
  let l ← pLatDict pick a
  return .sched1 k l x t

def pSched2 (pick : IntAttr → IntAttr → IntAttr) (env : Env) (k : Sched2) : P Stmt := do
  let a ← pBracket
  expect '('
  let x ← pArg env
  expect ','
  let y ← pArg env
  expect ')'
  expect ':'
  let t ← pType
  let l ← pLatDict pick a
  return .sched2 k l x y t

def pComb2 (env : Env) (k : Comb2) : P Stmt := do
  expect '('
  let x ← pArg env
  expect ','
  let y ← pArg env
  expect ')'
  expect ':'
  let t ← pType
  pNoDict
  return .comb2 k x y t

def pNot (env : Env) : P Stmt := do
  expect '('
  let x ← pArg env
  expect ')'
  expect ':'
  let t ← pType
  pNoDict
  return .not x t

/-- The operand is resolved with the type of the result (lines 436-443). -/
def pOffset (env : Env) : P Stmt := do
  expect '('
  let s ← pOperand
  expect ','
  let o ← pIntAttr
  expect ')'
  pNoDict
  expect ':'
  let t ← pWrapTy .stream
  let x ← resolve env s t
  return .offset x o t

def pConvert (env : Env) : P Stmt := do
  expect '('
  let x ← pArg env
  expect ')'
  pNoDict
  expect ':'
  let t ← pWrapTy .stream
  return .convert x t

def pMux (env : Env) : P Stmt := do
  expect '('
  let s ← pOperand
  expect ':'
  let ct ← pType
  expect ','
  let vs ← sepBy1 pMuxVar
  expect ')'
  expect ':'
  let t ← pType
  pNoDict
  let c ← resolve env s ct
  let xs ← resolveAll env t vs
  return .mux c xs t

def pBits (env : Env) : P Stmt := do
  expect '('
  let x ← pArg env
  expect ','
  let l ← pIntAttr
  expect ','
  let r ← pIntAttr
  expect ')'
  expect ':'
  let t ← pType
  pNoDict
  return .bits x l r t

def pShift (env : Env) (k : Shift) : P Stmt := do
  expect '('
  let x ← pArg env
  expect ','
  let n ← pIntAttr
  expect ')'
  expect ':'
  let t ← pType
  pNoDict
  return .shift k x n t

def pCounter (env : Env) : P Stmt := do
  expect '<'
  let ty ← pType
  expect '>'
  expect '('
  let s ← pOperand
  expect ':'
  let mt ← pWrapTy .scalar
  expect ')'
  pNoDict
  let m ← resolve env s mt
  return .counter ty m

/-- Dispatch on the name of the operation. -/
def pOp (pick : IntAttr → IntAttr → IntAttr) (env : Env) (s : List Char) : P Stmt :=
  if s = "dfcir.scalarInput".toList then pScalarInput
  else if s = "dfcir.scalarOutput".toList then pScalarOutput env
  else if s = "dfcir.input".toList then pInput env
  else if s = "dfcir.output".toList then pOutput env
  else if s = "dfcir.constant".toList then pConstant
  else if s = "dfcir.connect".toList then pConnect env
  else if s = "dfcir.latency".toList then pLatency pick env
  else if s = "dfcir.not".toList then pNot env
  else if s = "dfcir.offset".toList then pOffset env
  else if s = "dfcir.convert".toList then pConvert env
  else if s = "dfcir.mux".toList then pMux env
  else if s = "dfcir.bits".toList then pBits env
  else if s = "dfcir.simpleCounter".toList then pCounter env
  else match sched1Of s, sched2Of s, comb2Of s, shiftOf s with
    | some k, _, _, _ => pSched1 pick env k
    | _, some k, _, _ => pSched2 pick env k
    | _, _, some k, _ => pComb2 env k
    | _, _, _, some k => pShift env k
    | _, _, _, _ => fail

/-- The operations of a block up to the closing brace: a named result must not be defined yet, and the operation must have one; an operation with
a result may leave it unnamed. -/
def pBlockF (pick : IntAttr → IntAttr → IntAttr) : Nat → Env → P (List Stmt)
  | 0, _ => fail
  | n + 1, env => fun ts =>
    match ts with
    | .val v :: .p '=' :: .id op :: r =>
      if (lookup 0 env v).isSome then none
      else match pOp pick env op r with
        | some (s, r') => match s.res with
          | some t => (do let l ← pBlockF pick n (env ++ [(v, t)]); return s :: l : P (List Stmt)) r'
          | none => none
        | none => none
    | .id op :: r => match pOp pick env op r with
      | some (s, r') => (do let l ← pBlockF pick n (env ++ s.res.toList.map fun t => ([], t)); return s :: l : P (List Stmt)) r'
      | none => none
    | .p '}' :: _ => some ([], ts)
    | _ => none

def pBlock (pick : IntAttr → IntAttr → IntAttr) : P (List Stmt) := fun ts => pBlockF pick (ts.length + 1) [] ts

def pKeyword (k : List Char) : P Unit := fun ts =>
  match ts with
  | .id s :: r => if s = k then some ((), r) else none
  | _ => none

/-- A module with one kernel. -/
def pFile (pick : IntAttr → IntAttr → IntAttr) : P File := do
  pKeyword "module".toList
  expect '{'
  pKeyword "dfcir.kernel".toList
  let name ← pStr
  expect '{'
  let body ← pBlock pick
  expect '}'
  pNoDict
  expect '}'
  return ⟨name, body⟩

/-- `parseSourceString`: the whole text must be consumed. -/
def parse (pick : IntAttr → IntAttr → IntAttr) (cs : List Char) : Option File :=
  match lex cs with
  | some ts => match pFile pick ts with
    | some (f, []) => some f
    | _ => none
  | none => none

end Verif.Text
