import Verif.Kernels.Model
/-
The example kernels of /repo/examples, as code that calls the API, statement by statement.  Where C++ leaves the order of evaluation of
operands open, it is left to right (this affects only the order in which nodes are created).
-/
namespace Verif.Flat
open Verif.Dfcxx Verif.Flow Verif.Kernels

/-- `dfInt(n)` (kernel.cpp:44-50); `n` > 0 is asserted. -/
def sint (n : Nat) : DFType := .fixed true (n - 1) 0

/-- The constructor of `AddConst` (examples/addconst/addconst.h:23-30). -/
def addConst (F : FloatOps) : Build Unit := do
  let x ← call1 F (.input false "x" (uint 32))
  let const5 ← call1 F (.const (uint 32) 5)
  let sum1 ← call1 F (.bin .ADD x x)
  let sum2 ← call1 F (.bin .ADD sum1 const5)
  let sum3 ← call1 F (.bin .ADD sum2 x)
  let out ← call1 F (.output false "out" (uint 32))
  let _ ← call F (.connect out sum3)
  pure ()

/-- The constructor of `Polynomial2` (examples/polynomial2/polynomial2.h:23-29; the same class is in
examples/polynomial2_inst/polynomial2_inst.h). -/
def polynomial2 (F : FloatOps) : Build Unit := do
  let x ← call1 F (.input false "x" (uint 32))
  let squared ← call1 F (.bin .MUL x x)
  let squaredPlusX ← call1 F (.bin .ADD squared x)
  let result ← call1 F (.bin .ADD squaredPlusX x)
  let out ← call1 F (.output false "out" (uint 32))
  let _ ← call F (.connect out result)
  pure ()

/-- The constructor of `MatrixMul2` (examples/matrixmul2/matrixmul2.h:23-54). -/
def matrixMul2 (F : FloatOps) : Build Unit := do
  let x11 ← call1 F (.input false "x11" (uint 32))
  let x12 ← call1 F (.input false "x12" (uint 32))
  let x21 ← call1 F (.input false "x21" (uint 32))
  let x22 ← call1 F (.input false "x22" (uint 32))
  let y11 ← call1 F (.input false "y11" (uint 32))
  let y12 ← call1 F (.input false "y12" (uint 32))
  let y21 ← call1 F (.input false "y21" (uint 32))
  let y22 ← call1 F (.input false "y22" (uint 32))
  let mul11 ← call1 F (.bin .MUL x11 y11)
  let mul12 ← call1 F (.bin .MUL x12 y21)
  let mul21 ← call1 F (.bin .MUL x11 y12)
  let mul22 ← call1 F (.bin .MUL x12 y22)
  let mul31 ← call1 F (.bin .MUL x21 y11)
  let mul32 ← call1 F (.bin .MUL x22 y21)
  let mul41 ← call1 F (.bin .MUL x21 y12)
  let mul42 ← call1 F (.bin .MUL x22 y22)
  let sum1 ← call1 F (.bin .ADD mul11 mul12)
  let sum2 ← call1 F (.bin .ADD mul21 mul22)
  let sum3 ← call1 F (.bin .ADD mul31 mul32)
  let sum4 ← call1 F (.bin .ADD mul41 mul42)
  let out11 ← call1 F (.output false "out11" (uint 32))
  let _ ← call F (.connect out11 sum1)
  let out12 ← call1 F (.output false "out12" (uint 32))
  let _ ← call F (.connect out12 sum2)
  let out21 ← call1 F (.output false "out21" (uint 32))
  let _ ← call F (.connect out21 sum3)
  let out22 ← call1 F (.output false "out22" (uint 32))
  let _ ← call F (.connect out22 sum4)
  pure ()

/-- The constructor of `Scalar3` (examples/scalar3/scalar3.h:23-40). -/
def scalar3 (F : FloatOps) : Build Unit := do
  let x1 ← call1 F (.input false "x1" (uint 32))
  let y1 ← call1 F (.input false "y1" (uint 32))
  let x2 ← call1 F (.input false "x2" (uint 32))
  let y2 ← call1 F (.input false "y2" (uint 32))
  let x3 ← call1 F (.input false "x3" (uint 32))
  let y3 ← call1 F (.input false "y3" (uint 32))
  let mul1 ← call1 F (.bin .MUL x1 y1)
  let mul2 ← call1 F (.bin .MUL x2 y2)
  let mul3 ← call1 F (.bin .MUL x3 y3)
  let sum1 ← call1 F (.bin .ADD mul1 mul2)
  let sum2 ← call1 F (.bin .ADD sum1 mul3)
  let out ← call1 F (.output false "out" (uint 32))
  let _ ← call F (.connect out sum2)
  pure ()

/-- The constructor of `MuxMul` (examples/muxmul/muxmul.h:23-33). -/
def muxMul (F : FloatOps) : Build Unit := do
  let x ← call1 F (.input false "x" (uint 32))
  let ctrl ← call1 F (.input false "ctrl" (uint 1))
  let c1 ← call1 F (.const (uint 32) 0)
  let c2 ← call1 F (.const (uint 32) 1)
  let muxed ← call1 F (.mux ctrl [c1, c2])
  let sum ← call1 F (.bin .ADD x x)
  let product ← call1 F (.bin .MUL sum muxed)
  let out ← call1 F (.output false "out" (uint 32))
  let _ ← call F (.connect out product)
  pure ()

/-- The constructor of `MovingSum` (examples/movingsum/movingsum.h:23-30). -/
def movingSum (F : FloatOps) : Build Unit := do
  let x ← call1 F (.input false "x" (uint 32))
  let xMinus ← call1 F (.offset x (-1))
  let xPlus ← call1 F (.offset x 1)
  let sum1 ← call1 F (.bin .ADD xMinus x)
  let sum2 ← call1 F (.bin .ADD sum1 xPlus)
  let out ← call1 F (.output false "out" (uint 32))
  let _ ← call F (.connect out sum2)
  pure ()

/-! ### The inverse DCT -/

/-- The constants of row_idct.h:28-40 and idct.h:52-65. -/
structure IdctConsts where
  c128 : Nat
  c181 : Nat
  c8192 : Nat
  c4 : Nat
  cM256 : Nat
  c255 : Nat
  W1 : Nat
  W2 : Nat
  W3 : Nat
  W5 : Nat
  W6 : Nat
  W7 : Nat

/-- row_idct.h:28-40, idct.h:52-65; `itm`: the type of the intermediate values. -/
def idctConsts (F : FloatOps) (itm : DFType) : Build IdctConsts := do
  let c128 ← call1 F (.const (sint 32) 128)
  let c181 ← call1 F (.const (sint 32) 181)
  let c8192 ← call1 F (.const (sint 32) 8192)
  let c4 ← call1 F (.const (sint 32) 4)
  let cM256 ← call1 F (.const itm (-256))
  let c255 ← call1 F (.const itm 255)
  let W1 ← call1 F (.const (sint 32) 2841)
  let W2 ← call1 F (.const (sint 32) 2676)
  let W3 ← call1 F (.const (sint 32) 2408)
  let W5 ← call1 F (.const (sint 32) 1609)
  let W6 ← call1 F (.const (sint 32) 1108)
  let W7 ← call1 F (.const (sint 32) 565)
  pure ⟨c128, c181, c8192, c4, cM256, c255, W1, W2, W3, W5, W6, W7⟩

/-- `((x + y) >> k).cast(itm)` and `((x - y) >> k).cast(itm)` (row_idct.h:82-89, idct.h:111-118). -/
def shiftCast (F : FloatOps) (itm : DFType) (op : OpType) (x y k : Nat) : Build Nat := do
  let s ← call1 F (.bin op x y)
  let s ← call1 F (.shift false s k)
  call1 F (.cast s itm false)

/-- One iteration of row_idct.h:48-90 and idct.h:77-119; `v` are the eight values of the row, the results are those assigned to them. -/
def rowPass (F : FloatOps) (itm : DFType) (K : IdctConsts) (v : Nat → Nat) : Build (List Nat) := do
  let a0 ← call1 F (.cast (v 0) (sint 32) false)
  let a0 ← call1 F (.shift true a0 11)
  let x0 ← call1 F (.bin .ADD a0 K.c128)
  let a1 ← call1 F (.cast (v 4) (sint 32) false)
  let x1 ← call1 F (.shift true a1 11)
  let x2 ← call1 F (.cast (v 6) (sint 32) false)
  let x3 ← call1 F (.cast (v 2) (sint 32) false)
  let x4 ← call1 F (.cast (v 1) (sint 32) false)
  let x5 ← call1 F (.cast (v 7) (sint 32) false)
  let x6 ← call1 F (.cast (v 5) (sint 32) false)
  let x7 ← call1 F (.cast (v 3) (sint 32) false)
  -- 58-63
  let s ← call1 F (.bin .ADD x4 x5)
  let x8 ← call1 F (.bin .MUL s K.W7)
  let d ← call1 F (.bin .SUB K.W1 K.W7)
  let m ← call1 F (.bin .MUL x4 d)
  let x4 ← call1 F (.bin .ADD x8 m)
  let d ← call1 F (.bin .ADD K.W1 K.W7)
  let m ← call1 F (.bin .MUL x5 d)
  let x5 ← call1 F (.bin .SUB x8 m)
  let s ← call1 F (.bin .ADD x6 x7)
  let x8 ← call1 F (.bin .MUL s K.W3)
  let d ← call1 F (.bin .SUB K.W3 K.W5)
  let m ← call1 F (.bin .MUL x6 d)
  let x6 ← call1 F (.bin .SUB x8 m)
  let d ← call1 F (.bin .ADD K.W3 K.W5)
  let m ← call1 F (.bin .MUL x7 d)
  let x7 ← call1 F (.bin .SUB x8 m)
  -- 65-73
  let x8 ← call1 F (.bin .ADD x0 x1)
  let x0 ← call1 F (.bin .SUB x0 x1)
  let s ← call1 F (.bin .ADD x3 x2)
  let x1 ← call1 F (.bin .MUL s K.W6)
  let d ← call1 F (.bin .ADD K.W2 K.W6)
  let m ← call1 F (.bin .MUL x2 d)
  let x2 ← call1 F (.bin .SUB x1 m)
  let d ← call1 F (.bin .SUB K.W2 K.W6)
  let m ← call1 F (.bin .MUL x3 d)
  let x3 ← call1 F (.bin .ADD x1 m)
  let x1 ← call1 F (.bin .ADD x4 x6)
  let x4 ← call1 F (.bin .SUB x4 x6)
  let x6 ← call1 F (.bin .ADD x5 x7)
  let x5 ← call1 F (.bin .SUB x5 x7)
  -- 75-80
  let x7 ← call1 F (.bin .ADD x8 x3)
  let x8 ← call1 F (.bin .SUB x8 x3)
  let x3 ← call1 F (.bin .ADD x0 x2)
  let x0 ← call1 F (.bin .SUB x0 x2)
  let s ← call1 F (.bin .ADD x4 x5)
  let m ← call1 F (.bin .MUL s K.c181)
  let r ← call1 F (.bin .ADD m K.c128)
  let x2 ← call1 F (.shift false r 8)
  let s ← call1 F (.bin .SUB x4 x5)
  let m ← call1 F (.bin .MUL s K.c181)
  let r ← call1 F (.bin .ADD m K.c128)
  let x4 ← call1 F (.shift false r 8)
  -- 82-89
  let y0 ← shiftCast F itm .ADD x7 x1 8
  let y1 ← shiftCast F itm .ADD x3 x2 8
  let y2 ← shiftCast F itm .ADD x0 x4 8
  let y3 ← shiftCast F itm .ADD x8 x6 8
  let y4 ← shiftCast F itm .SUB x8 x6 8
  let y5 ← shiftCast F itm .SUB x0 x4 8
  let y6 ← shiftCast F itm .SUB x3 x2 8
  let y7 ← shiftCast F itm .SUB x7 x1 8
  pure [y0, y1, y2, y3, y4, y5, y6, y7]

/-- `values[8 * i + 0] = ...; ...; values[8 * i + 7] = ...`. -/
def assignRow (values : List Nat) (i : Nat) (ys : List Nat) : List Nat :=
  (List.range 8).foldl (fun vs j => vs.set (8 * i + j) (ys.getD j 0)) values

/-- row_idct.h:48-90, idct.h:77-119. -/
def rowLoop (F : FloatOps) (itm : DFType) (K : IdctConsts) (values : List Nat) : Build (List Nat) :=
  foldB (fun vs i => do
    let ys ← rowPass F itm K fun j => vs.getD (8 * i + j) 0
    pure (assignRow vs i ys)) (List.range 8) values

/-- The constructor of `RowIDCT` (examples/row_idct/row_idct.h:25-96). -/
def rowIdct (F : FloatOps) : Build Unit := do
  let K ← idctConsts F (sint 16)
  let values ← forEach (fun i => call1 F (.input false ("x" ++ toString i) (sint 16))) (List.range 64)
  let values ← rowLoop F (sint 16) K values
  let _ ← forEach (fun i => do
    let out ← call1 F (.output false ("out" ++ toString i) (sint 16))
    let _ ← call F (.connect out (values.getD i 0))
    pure ()) (List.range 64)
  pure ()

/-- `iclp` (idct.h:37-43). -/
def iclp (F : FloatOps) (var left right : Nat) : Build Nat := do
  let c ← call1 F (.bin .GREATEREQ var left)
  let firstRange ← call1 F (.cast c (uint 2) false)
  let c ← call1 F (.bin .GREATER var right)
  let secondRange ← call1 F (.cast c (uint 2) false)
  let muxValue ← call1 F (.bin .ADD firstRange secondRange)
  call1 F (.mux muxValue [left, var, right])

/-- `iclp(((x + y) >> 14).cast(intermType), constM256, const255)` (idct.h:155-162). -/
def shiftClip (F : FloatOps) (itm : DFType) (K : IdctConsts) (op : OpType) (x y : Nat) : Build Nat := do
  let v ← shiftCast F itm op x y 14
  iclp F v K.cM256 K.c255

/-- One iteration of idct.h:121-163; `v` are the eight values of the column, the results are those assigned to them. -/
def colPass (F : FloatOps) (itm : DFType) (K : IdctConsts) (v : Nat → Nat) : Build (List Nat) := do
  let a0 ← call1 F (.cast (v 0) (sint 32) false)
  let a0 ← call1 F (.shift true a0 8)
  let x0 ← call1 F (.bin .ADD a0 K.c8192)
  let a1 ← call1 F (.cast (v 4) (sint 32) false)
  let x1 ← call1 F (.shift true a1 8)
  let x2 ← call1 F (.cast (v 6) (sint 32) false)
  let x3 ← call1 F (.cast (v 2) (sint 32) false)
  let x4 ← call1 F (.cast (v 1) (sint 32) false)
  let x5 ← call1 F (.cast (v 7) (sint 32) false)
  let x6 ← call1 F (.cast (v 5) (sint 32) false)
  let x7 ← call1 F (.cast (v 3) (sint 32) false)
  -- 131-136
  let s ← call1 F (.bin .ADD x4 x5)
  let m ← call1 F (.bin .MUL s K.W7)
  let x8 ← call1 F (.bin .ADD m K.c4)
  let d ← call1 F (.bin .SUB K.W1 K.W7)
  let m ← call1 F (.bin .MUL x4 d)
  let s ← call1 F (.bin .ADD x8 m)
  let x4 ← call1 F (.shift false s 3)
  let d ← call1 F (.bin .ADD K.W1 K.W7)
  let m ← call1 F (.bin .MUL x5 d)
  let s ← call1 F (.bin .SUB x8 m)
  let x5 ← call1 F (.shift false s 3)
  let s ← call1 F (.bin .ADD x6 x7)
  let m ← call1 F (.bin .MUL s K.W3)
  let x8 ← call1 F (.bin .ADD m K.c4)
  let d ← call1 F (.bin .SUB K.W3 K.W5)
  let m ← call1 F (.bin .MUL x6 d)
  let s ← call1 F (.bin .SUB x8 m)
  let x6 ← call1 F (.shift false s 3)
  let d ← call1 F (.bin .ADD K.W3 K.W5)
  let m ← call1 F (.bin .MUL x7 d)
  let s ← call1 F (.bin .SUB x8 m)
  let x7 ← call1 F (.shift false s 3)
  -- 138-146
  let x8 ← call1 F (.bin .ADD x0 x1)
  let x0 ← call1 F (.bin .SUB x0 x1)
  let s ← call1 F (.bin .ADD x3 x2)
  let m ← call1 F (.bin .MUL s K.W6)
  let x1 ← call1 F (.bin .ADD m K.c4)
  let d ← call1 F (.bin .ADD K.W2 K.W6)
  let m ← call1 F (.bin .MUL x2 d)
  let s ← call1 F (.bin .SUB x1 m)
  let x2 ← call1 F (.shift false s 3)
  let d ← call1 F (.bin .SUB K.W2 K.W6)
  let m ← call1 F (.bin .MUL x3 d)
  let s ← call1 F (.bin .ADD x1 m)
  let x3 ← call1 F (.shift false s 3)
  let x1 ← call1 F (.bin .ADD x4 x6)
  let x4 ← call1 F (.bin .SUB x4 x6)
  let x6 ← call1 F (.bin .ADD x5 x7)
  let x5 ← call1 F (.bin .SUB x5 x7)
  -- 148-153
  let x7 ← call1 F (.bin .ADD x8 x3)
  let x8 ← call1 F (.bin .SUB x8 x3)
  let x3 ← call1 F (.bin .ADD x0 x2)
  let x0 ← call1 F (.bin .SUB x0 x2)
  let s ← call1 F (.bin .ADD x4 x5)
  let m ← call1 F (.bin .MUL s K.c181)
  let r ← call1 F (.bin .ADD m K.c128)
  let x2 ← call1 F (.shift false r 8)
  let s ← call1 F (.bin .SUB x4 x5)
  let m ← call1 F (.bin .MUL s K.c181)
  let r ← call1 F (.bin .ADD m K.c128)
  let x4 ← call1 F (.shift false r 8)
  -- 155-162
  let y0 ← shiftClip F itm K .ADD x7 x1
  let y1 ← shiftClip F itm K .ADD x3 x2
  let y2 ← shiftClip F itm K .ADD x0 x4
  let y3 ← shiftClip F itm K .ADD x8 x6
  let y4 ← shiftClip F itm K .SUB x8 x6
  let y5 ← shiftClip F itm K .SUB x0 x4
  let y6 ← shiftClip F itm K .SUB x3 x2
  let y7 ← shiftClip F itm K .SUB x7 x1
  pure [y0, y1, y2, y3, y4, y5, y6, y7]

/-- `values[8 * 0 + i] = ...; ...; values[8 * 7 + i] = ...`. -/
def assignCol (values : List Nat) (i : Nat) (ys : List Nat) : List Nat :=
  (List.range 8).foldl (fun vs j => vs.set (8 * j + i) (ys.getD j 0)) values

/-- idct.h:121-163. -/
def colLoop (F : FloatOps) (itm : DFType) (K : IdctConsts) (values : List Nat) : Build (List Nat) :=
  foldB (fun vs i => do
    let ys ← colPass F itm K fun j => vs.getD (8 * j + i) 0
    pure (assignCol vs i ys)) (List.range 8) values

/-- The constructor of `IDCT` (examples/idct/idct.h:45-176). -/
def idct (F : FloatOps) : Build Unit := do
  let K ← idctConsts F (sint 13)
  let x ← call1 F (.input false "x" (sint 768))
  let values ← forEach (fun i => call1 F (.bits x (11 + i * 12) (i * 12))) (List.range 64)
  let values ← rowLoop F (sint 13) K values
  let values ← colLoop F (sint 13) K values
  let first ← call1 F (.cast (values.getD 0 0) (.rawBits 9) false)
  let concat ← foldB (fun cur i => do
    let casted ← call1 F (.cast (values.getD (i + 1) 0) (.rawBits 9) false)
    call1 F (.cat casted cur)) (List.range 63) first
  let out ← call1 F (.output false "out" (sint 576))
  let y ← call1 F (.cast concat (sint 576) false)
  let _ ← call F (.connect out y)
  pure ()

end Verif.Flat
