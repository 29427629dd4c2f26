import Verif.Std.Tables
/-
Model of the standard-library kernels: /repo/src/model/dfcxx/std/dfcxx/std/algebra/galois8mul.h and
crypto/gost_34_12/{magma,kuznechik,kuznechik_galois8mul}.h.

A `DFVariable` of width `w` is its value, a `BitVec w`; the front-end operators are given their meaning at that width (for the
hardware: `Hw/LowerProps.lean`, `Hw/StubsProps.lean`): `x(hi, lo)` is the bit range, `x.cat(y)` is `x ++ y`, `^`, `<<`, `>>`,
`+` work modulo 2^w, `cast` between equally wide types keeps the bits, `control.mux(s, {a0, a1, ...})` selects `a_s`.
Kernel instances are inlined (C10).  Loops that build graphs are unrolled or written as folds over the loop indices.
-/
namespace Verif.Std

/-- `control.mux(sel, alts)`.  All uses below have 2^k alternatives for a k-bit select, so the default is never taken
(`mux_in_range`). -/
def mux {k w : Nat} (sel : BitVec k) (alts : List (BitVec w)) : BitVec w := alts.getD sel.toNat 0

/-- `control.mux` over constants of width `w`. -/
def muxC {k : Nat} (w : Nat) (sel : BitVec k) (consts : List Nat) : BitVec w := mux sel (consts.map (BitVec.ofNat w))

/-! ### Galois8Mul -/

/-- One iteration of the loop (galois8mul.h:35-42) on `(currValue, left, right)`. -/
def galoisStep (s : BitVec 8 × BitVec 8 × BitVec 8) : BitVec 8 × BitVec 8 × BitVec 8 :=
  let (currValue, left, right) := s
  let isBitSet := right.extractLsb' 0 1
  let currValue := currValue ^^^ mux isBitSet [0#8, left]
  let aboutToOverflow := left.extractLsb' 7 1
  let muxed := mux aboutToOverflow [0#8, 195#8]
  (currValue, (left <<< 1) ^^^ muxed, right >>> 1)

/-- `Galois8Mul` (galois8mul.h:26-49): seven iterations and the last bit. -/
def galois8Mul (left right : BitVec 8) : BitVec 8 :=
  let (currValue, left, right) := (List.range 7).foldl (fun s _ => galoisStep s) (0#8, left, right)
  let isBitSet := right.extractLsb' 0 1
  currValue ^^^ mux isBitSet [0#8, left]

/-- `KuznechikGalois8Mul(constVal)` (kuznechik_galois8mul.h:26-253); `none`: the assertion of line 249. -/
def kuznechikGalois8Mul (constVal : Nat) (inp : BitVec 8) : Option (BitVec 8) :=
  match constVal with
  | 0x01 => some inp
  | 0x94 => some (muxC 8 inp mulTable94)
  | 0x20 => some (muxC 8 inp mulTable20)
  | 0x85 => some (muxC 8 inp mulTable85)
  | 0x10 => some (muxC 8 inp mulTable10)
  | 0xC2 => some (muxC 8 inp mulTableC2)
  | 0xC0 => some (muxC 8 inp mulTableC0)
  | 0xFB => some (muxC 8 inp mulTableFB)
  | _ => none

/-! ### Magma -/

/-- `permut` (magma.h:27-114). -/
def permut (tableId : Nat) (val : BitVec 4) : BitVec 4 :=
  match magmaTables[tableId]? with
  | some t => muxC 4 val t
  | none => 0

/-- `round` (magma.h:116-131). -/
def magmaRound (left right key : BitVec 32) : BitVec 32 × BitVec 32 :=
  let sum := right + key
  let part (i : Nat) : BitVec 4 := sum.extractLsb' (4 * i) 4          -- 121: `sum(i + 3, i)` for i = 0, 4, ..., 28
  let subst : BitVec 32 :=                                             -- 123-126
    permut 7 (part 7) ++ permut 6 (part 6) ++ permut 5 (part 5) ++ permut 4 (part 4) ++ permut 3 (part 3) ++
      permut 2 (part 2) ++ permut 1 (part 1) ++ permut 0 (part 0)
  let shifted : BitVec 32 := subst.extractLsb 20 0 ++ subst.extractLsb 31 21   -- 128
  (right, left ^^^ shifted)

/-- `keys` (magma.h:146-147, 176-177): `key(255, 224)`, `key(223, 192)`, ... -/
def magmaKey (key : BitVec 256) (i : Nat) : BitVec 32 := key.extractLsb' (224 - 32 * i) 32

/-- A sequence of rounds with the keys of the given indices. -/
def magmaRounds (key : BitVec 256) (s : BitVec 32 × BitVec 32) (inds : List Nat) : BitVec 32 × BitVec 32 :=
  inds.foldl (fun s i => magmaRound s.1 s.2 (magmaKey key i)) s

/-- `kInd` from 0 to 7, and from 7 down to 0. -/
def up : List Nat := [0, 1, 2, 3, 4, 5, 6, 7]
def down : List Nat := [7, 6, 5, 4, 3, 2, 1, 0]

/-- `MagmaEncoder` (magma.h:140-162). -/
def magmaEncode (key : BitVec 256) (block : BitVec 64) : BitVec 64 :=
  let curr := (block.extractLsb 63 32, block.extractLsb 31 0)
  let curr := magmaRounds key curr (up ++ up ++ up)
  let curr := magmaRounds key curr down
  curr.2 ++ curr.1

/-- `MagmaDecoder` (magma.h:170-192). -/
def magmaDecode (key : BitVec 256) (encoded : BitVec 64) : BitVec 64 :=
  let curr := (encoded.extractLsb 63 32, encoded.extractLsb 31 0)
  let curr := magmaRounds key curr up
  let curr := magmaRounds key curr (down ++ down ++ down)
  curr.2 ++ curr.1

/-! ### Kuznechik -/

/-- `tablePermut` (kuznechik.h:36-109). -/
def tablePermut (val : BitVec 8) (inv : Bool) : BitVec 8 :=
  if inv then muxC 8 val piInvTable else muxC 8 val piTable

/-- `value(127 - 8 i, 120 - 8 i)`: the i-th byte from the top. -/
def slice (v : BitVec 128) (i : Nat) : BitVec 8 := v.extractLsb' (120 - 8 * i) 8

/-- Concatenation of 16 bytes, the first on top. -/
def cat16 (f : Nat → BitVec 8) : BitVec 128 :=
  f 0 ++ f 1 ++ f 2 ++ f 3 ++ f 4 ++ f 5 ++ f 6 ++ f 7 ++ f 8 ++ f 9 ++ f 10 ++ f 11 ++ f 12 ++ f 13 ++ f 14 ++ f 15

/-- `S` (kuznechik.h:111-118). -/
def kS (value : BitVec 128) (inv : Bool) : BitVec 128 := cat16 fun i => tablePermut (slice value i) inv

/-- Coefficients of the linear transformation (kuznechik.h:125-128 and 152-161). -/
def optConsts : List Nat := [148, 32, 133, 16, 194, 192, 1, 251, 1, 192, 194, 16, 133, 32, 148, 1]
def plainConsts : List Nat := [148, 32, 133, 16, 194, 192, 1, 251, 1, 192, 194, 16, 133, 32, 148, 1]

/-- The product of coefficient `i` and a byte, in the two variants (kuznechik.h:130-148 and 163-182).  The assertion in
`KuznechikGalois8Mul` is represented by 0; it is never reached (`opt_constants_have_tables`). -/
def kMul (optMul : Bool) (i : Nat) (x : BitVec 8) : BitVec 8 :=
  if optMul then (kuznechikGalois8Mul (optConsts.getD i 0) x).getD 0
  else galois8Mul (BitVec.ofNat 8 (plainConsts.getD i 0)) x

/-- `LGalois` (kuznechik.h:120-183). -/
def lGalois (optMul : Bool) (val : BitVec 128) : BitVec 8 :=
  (List.range' 1 15).foldl (fun result i => result ^^^ kMul optMul i (slice val i)) (kMul optMul 0 (slice val 0))

/-- `R` (kuznechik.h:185-192). -/
def kR (optMul : Bool) (val : BitVec 128) (inv : Bool) : BitVec 128 :=
  if inv then
    let extracted : BitVec 120 := val.extractLsb 119 0
    extracted ++ lGalois optMul (extracted ++ val.extractLsb 127 120 : BitVec 128)
  else lGalois optMul val ++ (val.extractLsb 127 8 : BitVec 120)

/-- `L` (kuznechik.h:194-200). -/
def kL (optMul : Bool) (val : BitVec 128) (inv : Bool) : BitVec 128 :=
  (List.range 16).foldl (fun v _ => kR optMul v inv) val

/-- `getConsts()[i]` (kuznechik.h:202-238). -/
def kConst (i : Nat) : BitVec 128 :=
  let c := roundConsts.getD i (0, 0)
  BitVec.ofNat 64 c.1 ++ BitVec.ofNat 64 c.2

/-- `XSL` (kuznechik.h:262-266). -/
def xsl (optMul : Bool) (key value : BitVec 128) : BitVec 128 :=
  let addedKey := key ^^^ value
  let permut := kS addedKey false
  kL optMul permut false

/-- `LSX` (kuznechik.h:268-272). -/
def lsx (optMul : Bool) (key value : BitVec 128) : BitVec 128 :=
  let lResult := kL optMul value true
  let permut := kS lResult true
  key ^^^ permut

/-- `F` (kuznechik.h:240-243). -/
def kF (optMul : Bool) (constVal : BitVec 128) (a : BitVec 128 × BitVec 128) : BitVec 128 × BitVec 128 :=
  (xsl optMul constVal a.1 ^^^ a.2, a.1)

/-- `genKeys` (kuznechik.h:245-260): the pairs of keys, `keys[2i]` and `keys[2i+1]`. -/
def genPair (optMul : Bool) (k0 k1 : BitVec 128) : Nat → BitVec 128 × BitVec 128
  | 0 => (k0, k1)
  | i + 1 => (List.range 8).foldl (fun curr j => kF optMul (kConst (8 * i + j)) curr) (genPair optMul k0 k1 i)

/-- `gKeys[i]` (kuznechik.h:291, 317 with 245-260). -/
def gKey (optMul : Bool) (key : BitVec 256) (i : Nat) : BitVec 128 :=
  let p := genPair optMul (key.extractLsb 255 128) (key.extractLsb 127 0) (i / 2)
  if i % 2 = 0 then p.1 else p.2

/-- `KuznechikEncoder` (kuznechik.h:285-302). -/
def kuznechikEncode (optMul : Bool) (key : BitVec 256) (block : BitVec 128) : BitVec 128 :=
  let currValue := (List.range 9).foldl (fun v i => xsl optMul (gKey optMul key i) v) block
  currValue ^^^ gKey optMul key 9

/-- `KuznechikDecoder` (kuznechik.h:311-326). -/
def kuznechikDecode (optMul : Bool) (key : BitVec 256) (encoded : BitVec 128) : BitVec 128 :=
  let currValue := encoded ^^^ gKey optMul key 9
  (List.range 9).reverse.foldl (fun v i => lsx optMul (gKey optMul key i) v) currValue

end Verif.Std
