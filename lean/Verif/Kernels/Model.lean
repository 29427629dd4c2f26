import Verif.Kernels.Inst
import Verif.Std.Model
/-
The kernels of the standard library, as code that calls the API, statement by statement:
/repo/src/model/dfcxx/std/dfcxx/std/algebra/galois8mul.h and crypto/gost_34_12/{magma,kuznechik,kuznechik_galois8mul}.h.

Simplification, here and below: where C++ leaves the order of evaluation of operands open (arguments of `operator+`, of `make_pair`,
of a function), it is left to right.  Loops over indices are folds over the list of the indices.
-/
namespace Verif.Kernels
open Verif.Dfcxx Verif.Flow

/-- `dfUInt(n)` (kernel.cpp:37-39). -/
def uint (n : Nat) : DFType := .fixed false n 0

/-- A loop that carries a state. -/
def foldB {σ α : Type} (f : σ → α → Build σ) : List α → σ → Build σ
  | [], s => pure s
  | a :: l, s => do
    let s' ← f s a
    foldB f l s'

/-- `constant.var(dfUInt(k), uint64_t(v))`: the macro `C` of kuznechik_galois8mul.h:29 and kuznechik.h:20. -/
def cst (F : FloatOps) (k v : Nat) : Build Nat := call1 F (.const (uint k) (BitVec.ofNat 64 v))

/-- `control.mux(sel, {C(v0), C(v1), ...})`: the braces are evaluated left to right. -/
def muxConsts (F : FloatOps) (k sel : Nat) (table : List Nat) : Build Nat := do
  let cs ← forEach (cst F k) table
  call1 F (.mux sel cs)

/-! ### Galois8Mul -/

/-- galois8mul.h:36-37, 45-46: `currValue ^ control.mux(right(0, 0), {c0, left})`. -/
def galoisAdd (F : FloatOps) (c0 currValue left right : Nat) : Build Nat := do
  let isBitSet ← call1 F (.bits right 0 0)
  let m ← call1 F (.mux isBitSet [c0, left])
  call1 F (.bin .XOR currValue m)

/-- galois8mul.h:36-41: one iteration, on `(currValue, left, right)`. -/
def galoisIter (F : FloatOps) (c0 c195 : Nat) (s : Nat × Nat × Nat) : Build (Nat × Nat × Nat) := do
  let currValue ← galoisAdd F c0 s.1 s.2.1 s.2.2
  let aboutToOverflow ← call1 F (.bits s.2.1 7 7)
  let muxed ← call1 F (.mux aboutToOverflow [c0, c195])
  let shifted ← call1 F (.shift true s.2.1 1)
  let left ← call1 F (.bin .XOR shifted muxed)
  let right ← call1 F (.shift false s.2.2 1)
  pure (currValue, left, right)

/-- galois8mul.h:31-46. -/
def galoisBody (F : FloatOps) (left right : Nat) : Build Nat := do
  let c0 ← cst F 8 0
  let c195 ← cst F 8 195
  let s ← foldB (fun s _ => galoisIter F c0 c195 s) (List.range 7) (c0, left, right)
  galoisAdd F c0 s.1 s.2.1 s.2.2

/-- The constructor of `Galois8Mul` (galois8mul.h:26-49). -/
def galois8Mul (F : FloatOps) : Build Unit := do
  let left ← call1 F (.input false "left" (uint 8))
  let right ← call1 F (.input false "right" (uint 8))
  let currValue ← galoisBody F left right
  let result ← call1 F (.output false "result" (uint 8))
  let s ← pure currValue
  let _ ← call F (.connect result s)
  pure ()

/-! ### KuznechikGalois8Mul -/

/-- The tables of kuznechik_galois8mul.h:36-248, by constant; the one for 1 is the identity and is not built. -/
def mulTable : Nat → Option (List Nat)
  | 0x94 => some Std.mulTable94
  | 0x20 => some Std.mulTable20
  | 0x85 => some Std.mulTable85
  | 0x10 => some Std.mulTable10
  | 0xC2 => some Std.mulTableC2
  | 0xC0 => some Std.mulTableC0
  | 0xFB => some Std.mulTableFB
  | _ => none

/-- kuznechik_galois8mul.h:34-250: the `switch`. -/
def kuznBody (F : FloatOps) (constVal inp : Nat) : Build Nat :=
  if constVal = 1 then pure inp
  else match mulTable constVal with
    | some t => muxConsts F 8 inp t
    | none => fun _ => .error .assertFail

/-- The constructor of `KuznechikGalois8Mul` (kuznechik_galois8mul.h:26-253). -/
def kuznGalois (F : FloatOps) (constVal : Nat) : Build Unit := do
  let inp ← call1 F (.input false "in" (uint 8))
  let out ← call1 F (.output false "out" (uint 8))
  let muxed ← kuznBody F constVal inp
  let _ ← call F (.connect out muxed)
  pure ()

/-! ### Magma -/

/-- `permut` (magma.h:27-114): the constants 0 to 15, then the multiplexer whose alternatives name them. -/
def permut (F : FloatOps) (tableId val : Nat) : Build Nat := do
  let cs ← forEach (cst F 4) (List.range 16)
  match Std.magmaTables[tableId]? with
  | some t => call1 F (.mux val (t.map fun i => cs.getD i 0))
  | none => pure (cs.getD 0 0)

/-- `round` (magma.h:116-131). -/
def round (F : FloatOps) (left right key : Nat) : Build (Nat × Nat) := do
  let r ← call1 F (.cast right (uint 32) false)      -- 120: the types are never the same object
  let k ← call1 F (.cast key (uint 32) false)
  let sum ← call1 F (.bin .ADD r k)
  let parts ← forEach (fun i => call1 F (.bits sum (i + 3) i)) [0, 4, 8, 12, 16, 20, 24, 28]
  let subst ← permut F 7 (parts.getD 7 0)
  let subst ← foldB (fun subst i => do
    let p ← permut F i (parts.getD i 0)
    call1 F (.cat subst p)) [6, 5, 4, 3, 2, 1, 0] subst
  let a ← call1 F (.bits subst 20 0)
  let b ← call1 F (.bits subst 31 21)
  let shifted ← call1 F (.cat a b)
  let x ← call1 F (.bin .XOR left shifted)
  pure (right, x)

/-- magma.h:144-157, 174-187: the first state, the keys, the rounds with the keys of the given indices. -/
def magmaBody (F : FloatOps) (inds : List Nat) (block key : Nat) : Build (Nat × Nat) := do
  let first ← call1 F (.bits block 63 32)
  let second ← call1 F (.bits block 31 0)
  let keys ← forEach (fun i => call1 F (.bits key i (i - 31))) [255, 223, 191, 159, 127, 95, 63, 31]
  foldB (fun curr i => round F curr.1 curr.2 (keys.getD i 0)) inds (first, second)

/-- The constructor of `MagmaEncoder` (magma.h:140-162). -/
def magmaEncoder (F : FloatOps) : Build Unit := do
  let block ← call1 F (.input false "block" (uint 64))
  let key ← call1 F (.input false "key" (uint 256))
  let curr ← magmaBody F (Std.up ++ Std.up ++ Std.up ++ Std.down) block key
  let encoded ← call1 F (.output false "encoded" (uint 64))
  let s ← call1 F (.cat curr.2 curr.1)
  let _ ← call F (.connect encoded s)
  pure ()

/-- The constructor of `MagmaDecoder` (magma.h:170-192). -/
def magmaDecoder (F : FloatOps) : Build Unit := do
  let encoded ← call1 F (.input false "encoded" (uint 64))
  let key ← call1 F (.input false "key" (uint 256))
  let curr ← magmaBody F (Std.up ++ (Std.down ++ Std.down ++ Std.down)) encoded key
  let block ← call1 F (.output false "block" (uint 64))
  let s ← call1 F (.cat curr.2 curr.1)
  let _ ← call F (.connect block s)
  pure ()

/-! ### Kuznechik

The class of the standard library and the classes of /repo/examples/{kuznechik,kuznechik_inst,opt_kuznechik} are the same code but for two
places: how a byte is multiplied by a coefficient, and where the loop of `S` starts.  The tables and constants are the same numbers.
Lines are those of kuznechik.h of the standard library unless said otherwise. -/

/-- How `LGalois` multiplies: with an instance of `KuznechikGalois8Mul` (std with `opt_mul`, examples/opt_kuznechik), with an instance of
`Galois8Mul` (std without, examples/kuznechik_inst), or by a call of the method `galois8Mul` (examples/kuznechik). -/
inductive MulBy
  | table
  | inst
  | method
deriving DecidableEq, Repr

/-- `twice`: the loop of `S` starts at bit 127, so the top byte is there two times and the result has 136 bits
(kuznechik_encoder.h:67, kuznechik_enc_inst.h:105, opt_kuznechik_encoder.h:68); otherwise it starts at bit 119 (everywhere else). -/
structure Variant where
  mul : MulBy
  twice : Bool

/-- The standard library. -/
def stdVariant (optMul : Bool) : Variant := ⟨if optMul then .table else .inst, false⟩

/-- `tablePermut` (kuznechik.h:36-109). -/
def tablePermut (F : FloatOps) (val : Nat) (inv : Bool) : Build Nat :=
  if inv then muxConsts F 8 val Std.piInvTable else muxConsts F 8 val Std.piTable

/-- `S` (kuznechik.h:111-118); `i` counts the bytes from the top, for `127 - 8 i` there. -/
def sLayer (F : FloatOps) (twice : Bool) (value : Nat) (inv : Bool) : Build Nat := do
  let b ← call1 F (.bits value 127 120)
  let subst ← tablePermut F b inv
  foldB (fun subst i => do
    let b ← call1 F (.bits value (127 - 8 * i) (127 - 8 * i - 7))
    let p ← tablePermut F b inv
    call1 F (.cat subst p)) (if twice then List.range 16 else List.range' 1 15) subst

/-- kuznechik.h:130-135: the product of the top byte and the first coefficient. -/
def mulOptFirst (F : FloatOps) (val : Nat) : Build Nat := do
  let currSlice ← call1 F (.bits val 127 120)
  let result ← call1 F (.newVar false (uint 8))
  let hs ← inst F (kuznGalois F (Std.optConsts.getD 0 0)) [(currSlice, "in"), (result, "out")]
  pure (hs.getD 1 0)

/-- kuznechik.h:138-144: the product of byte `i` and coefficient `i`. -/
def mulOpt (F : FloatOps) (val i : Nat) : Build Nat := do
  let buf ← call1 F (.newVar false (uint 8))
  let currSlice ← call1 F (.bits val (127 - 8 * i) (127 - 8 * i - 7))
  let hs ← inst F (kuznGalois F (Std.optConsts.getD i 0)) [(currSlice, "in"), (buf, "out")]
  pure (hs.getD 1 0)

/-- `LGalois`, optimized (kuznechik.h:124-149). -/
def lGaloisOpt (F : FloatOps) (val : Nat) : Build Nat := do
  let result ← mulOptFirst F val
  foldB (fun result i => do
    let buf ← mulOpt F val i
    call1 F (.bin .XOR result buf)) (List.range' 1 15) result

/-- kuznechik.h:163-169. -/
def mulPlainFirst (F : FloatOps) (consts : List Nat) (val : Nat) : Build Nat := do
  let currSlice ← call1 F (.bits val 127 120)
  let result ← call1 F (.newVar false (uint 8))
  let hs ← inst F (galois8Mul F) [(consts.getD 0 0, "left"), (currSlice, "right"), (result, "result")]
  pure (hs.getD 2 0)

/-- kuznechik.h:172-178. -/
def mulPlain (F : FloatOps) (consts : List Nat) (val i : Nat) : Build Nat := do
  let buf ← call1 F (.newVar false (uint 8))
  let currSlice ← call1 F (.bits val (127 - 8 * i) (127 - 8 * i - 7))
  let hs ← inst F (galois8Mul F) [(consts.getD i 0, "left"), (currSlice, "right"), (buf, "result")]
  pure (hs.getD 2 0)

/-- `LGalois`, classic (kuznechik.h:151-182). -/
def lGaloisPlain (F : FloatOps) (val : Nat) : Build Nat := do
  let consts ← forEach (cst F 8) Std.plainConsts
  let result ← mulPlainFirst F consts val
  foldB (fun result i => do
    let buf ← mulPlain F consts val i
    call1 F (.bin .XOR result buf)) (List.range' 1 15) result

/-- examples/kuznechik: `galois8Mul(consts[i], val(127 - 8 i, 120 - 8 i))` (kuznechik_encoder.h:109, 113; the body, lines 74-93, is the one
of the kernel `Galois8Mul` without ports).  The first operand is a constant. -/
def mulMethod (F : FloatOps) (consts : List Nat) (val i : Nat) : Build Nat := do
  let s ← call1 F (.bits val (127 - 8 * i) (127 - 8 * i - 7))
  galoisBody F (consts.getD i 0) s

/-- examples/kuznechik: `LGalois` (kuznechik_encoder.h:95-117, kuznechik_decoder.h:132-154). -/
def lGaloisMethod (F : FloatOps) (val : Nat) : Build Nat := do
  let consts ← forEach (cst F 8) Std.plainConsts
  let result ← mulMethod F consts val 0
  foldB (fun result i => do
    let p ← mulMethod F consts val i
    call1 F (.bin .XOR result p)) (List.range' 1 15) result

/-- `LGalois` (kuznechik.h:120-183). -/
def lGalois (F : FloatOps) (mul : MulBy) (val : Nat) : Build Nat :=
  match mul with
  | .table => lGaloisOpt F val
  | .inst => lGaloisPlain F val
  | .method => lGaloisMethod F val

/-- `R` (kuznechik.h:185-192). -/
def rStep (F : FloatOps) (v : Variant) (val : Nat) (inv : Bool) : Build Nat :=
  if inv then do
    let extracted ← call1 F (.bits val 119 0)
    let top ← call1 F (.bits val 127 120)
    let rot ← call1 F (.cat extracted top)
    let l ← lGalois F v.mul rot
    call1 F (.cat extracted l)
  else do
    let l ← lGalois F v.mul val
    let rest ← call1 F (.bits val 127 8)
    call1 F (.cat l rest)

/-- `L` (kuznechik.h:194-200). -/
def lLayer (F : FloatOps) (v : Variant) (val : Nat) (inv : Bool) : Build Nat :=
  foldB (fun x _ => rStep F v x inv) (List.range 16) val

/-- `getConsts` (kuznechik.h:202-238): `C(hi).cat(C(lo))`, 32 times. -/
def getConsts (F : FloatOps) : Build (List Nat) :=
  forEach (fun c => do
    let a ← cst F 64 c.1
    let b ← cst F 64 c.2
    call1 F (.cat a b)) Std.roundConsts

/-- `XSL` (kuznechik.h:262-266). -/
def xsl (F : FloatOps) (v : Variant) (key value : Nat) : Build Nat := do
  let addedKey ← call1 F (.bin .XOR key value)
  let permut ← sLayer F v.twice addedKey false
  lLayer F v permut false

/-- `LSX` (kuznechik.h:268-272). -/
def lsx (F : FloatOps) (v : Variant) (key value : Nat) : Build Nat := do
  let lResult ← lLayer F v value true
  let permut ← sLayer F v.twice lResult true
  call1 F (.bin .XOR key permut)

/-- `F` (kuznechik.h:240-243), on the pair `(a1, a0)`. -/
def fStep (F : FloatOps) (v : Variant) (constVal : Nat) (a : Nat × Nat) : Build (Nat × Nat) := do
  let x ← xsl F v constVal a.1
  let y ← call1 F (.bin .XOR x a.2)
  pure (y, a.1)

/-- `genKeys` (kuznechik.h:245-260). -/
def genKeys (F : FloatOps) (v : Variant) (k0 k1 : Nat) : Build (List Nat) := do
  let consts ← getConsts F
  foldB (fun keys i => do
    let curr ← foldB (fun curr j => fStep F v (consts.getD (8 * i + j) 0) curr) (List.range 8) (keys.getD (2 * i) 0, keys.getD (2 * i + 1) 0)
    pure (keys ++ [curr.1, curr.2])) (List.range 4) [k0, k1]

/-- kuznechik.h:291-298. -/
def kuznechikEncBody (F : FloatOps) (v : Variant) (block key : Nat) : Build Nat := do
  let k0 ← call1 F (.bits key 255 128)
  let k1 ← call1 F (.bits key 127 0)
  let gKeys ← genKeys F v k0 k1
  let currValue ← foldB (fun x i => xsl F v (gKeys.getD i 0) x) (List.range 9) block
  call1 F (.bin .XOR currValue (gKeys.getD 9 0))

/-- The constructor of `KuznechikEncoder` (kuznechik.h:285-302). -/
def kuznechikEncoder (F : FloatOps) (v : Variant) : Build Unit := do
  let block ← call1 F (.input false "block" (uint 128))
  let key ← call1 F (.input false "key" (uint 256))
  let currValue ← kuznechikEncBody F v block key
  let encoded ← call1 F (.output false "encoded" (uint 128))
  let s ← pure currValue
  let _ ← call F (.connect encoded s)
  pure ()

/-- kuznechik.h:317-322. -/
def kuznechikDecBody (F : FloatOps) (v : Variant) (encoded key : Nat) : Build Nat := do
  let k0 ← call1 F (.bits key 255 128)
  let k1 ← call1 F (.bits key 127 0)
  let gKeys ← genKeys F v k0 k1
  let currValue ← call1 F (.bin .XOR encoded (gKeys.getD 9 0))
  foldB (fun x i => lsx F v (gKeys.getD i 0) x) (List.range 9).reverse currValue

/-- The constructor of `KuznechikDecoder` (kuznechik.h:311-326). -/
def kuznechikDecoder (F : FloatOps) (v : Variant) : Build Unit := do
  let encoded ← call1 F (.input false "encoded" (uint 128))
  let key ← call1 F (.input false "key" (uint 256))
  let currValue ← kuznechikDecBody F v encoded key
  let block ← call1 F (.output false "block" (uint 128))
  let s ← pure currValue
  let _ ← call F (.connect block s)
  pure ()

end Verif.Kernels
