import Verif.Vlog.Lex
/-
Every module the stub generator writes, read.
-/
namespace Verif.Vlog
open Verif.Tpl

/-! ### What is read -/

/-- The shift register: `r[i] <= r[i - 1]` for `i` from `n` down to 1, and `r[0] <= e`. -/
def shiftStmt (n : Nat) (e : Expr) : Stmt :=
  .seq (.seq (.blocking (.id "i") (.num n))
      (.loop (.bin .ne (.id "i") (.num 0))
        (.seq (.seq (.nonblocking (.sel "r" (.id "i")) (.sel "r" (.bin .sub (.id "i") (.num 1)))) .skip)
          (.blocking (.id "i") (.bin .sub (.id "i") (.num 1))))))
    (.seq (.nonblocking (.sel "r" (.num 0)) e) .skip)

/-- A FIFO of width `a + 1` and depth `n + 1`. -/
def fifoMod (x : String) (a n : Nat) : Mod :=
  ⟨x, [⟨false, false, a + 1, "arg1"⟩, ⟨true, false, a + 1, "res1"⟩, ⟨false, false, 1, "clk"⟩],
    [.mem false (a + 1) "r" (n + 1), .integer "i", .always "clk" (shiftStmt n (.id "arg1")), .assign "res1" (.sel "r" (.num n))]⟩

/-- `{k{v}, e}`. -/
def extended (k : Nat) (v e : Expr) : Expr := .cat (.rep k (.cat1 v)) (.cat1 e)

/-- What is repeated: the top bit of `x`, or `1'h0`. -/
def filler (s : Bool) (x : String) (a : Nat) : Expr := if s then .sel x (.num a) else .lit 1 0

/-- A cast without registers from width `a + 1` to width `b + 1`. -/
def combCastMod (x : String) (a b k c : Nat) (s : Bool) : Mod :=
  ⟨x, [⟨false, false, a + 1, "arg1"⟩, ⟨true, false, b + 1, "res1"⟩, ⟨false, false, 1, "clk"⟩],
    [.wire false (c + 1) "cat", .assign "cat" (extended k (filler s "arg1" a) (.id "arg1")), .assign "res1" (.part "cat" b 0)]⟩

/-- A cast with `n + 1` registers. -/
def castMod (x : String) (a b k c n : Nat) (s : Bool) : Mod :=
  ⟨x, [⟨false, false, a + 1, "arg1"⟩, ⟨true, false, b + 1, "res1"⟩, ⟨false, false, 1, "clk"⟩],
    [.mem false (a + 1) "r" (n + 1), .wire false (c + 1) "cat", .integer "i", .always "clk" (shiftStmt n (.id "arg1")),
     .assign "cat" (extended k (filler s "arg1" a) (.sel "r" (.num n))), .assign "res1" (.part "cat" b 0)]⟩

def vBinOp : Hw.VOp → BinOp
  | .add => .add
  | .sub => .sub
  | .mul => .mul
  | .le => .le
  | .ge => .ge
  | .lt => .lt
  | .gt => .gt
  | .eq => .eq
  | .ne => .ne
  | .and => .and
  | .or => .or
  | .xor => .xor

/-- The numbers in a module for a binary operation: the widths of `arg1`, `arg2`, `res1`, `r`, the prepared operands and `cat`, less one, and the
repetitions. -/
structure Widths where
  a : Nat
  b : Nat
  c : Nat
  r : Nat
  p : Nat
  cat : Nat
  k1 : Nat
  k2 : Nat
  k3 : Nat

def binPorts (s1 s2 s3 : Bool) (W : Widths) : List Port :=
  [⟨false, s1, W.a + 1, "arg1"⟩, ⟨false, s2, W.b + 1, "arg2"⟩, ⟨true, s3, W.c + 1, "res1"⟩, ⟨false, false, 1, "clk"⟩]

def prepares (s3 : Bool) (W : Widths) : List Item :=
  [.assign "arg1_prepared" (extended W.k1 (filler s3 "arg1" W.a) (.id "arg1")),
   .assign "arg2_prepared" (extended W.k2 (filler s3 "arg2" W.b) (.id "arg2"))]

def opExpr (op : Hw.VOp) : Expr := .bin (vBinOp op) (.id "arg1_prepared") (.id "arg2_prepared")

/-- A binary operation without registers. -/
def combBinaryMod (x : String) (op : Hw.VOp) (s1 s2 s3 : Bool) (W : Widths) : Mod :=
  ⟨x, binPorts s1 s2 s3 W,
    [.wire false (W.r + 1) "r", .wire false (W.cat + 1) "cat", .wire s1 (W.p + 1) "arg1_prepared", .wire s2 (W.p + 1) "arg2_prepared"] ++
    prepares s3 W ++
    [.assign "r" (opExpr op),
     .assign "cat" (extended W.k3 (if s3 then .sel2 "r" (.neg (.num 1)) (.num W.r) else .lit 1 0) (.id "r")),
     .assign "res1" (.part "cat" W.c 0)]⟩

/-- A binary operation with `n + 1` registers. -/
def binaryMod (x : String) (op : Hw.VOp) (s1 s2 s3 : Bool) (W : Widths) (n : Nat) : Mod :=
  ⟨x, binPorts s1 s2 s3 W,
    [.mem false (W.r + 1) "r" (n + 1), .wire false (W.cat + 1) "cat", .wire s1 (W.p + 1) "arg1_prepared", .wire s2 (W.p + 1) "arg2_prepared"] ++
    prepares s3 W ++
    [.integer "i", .always "clk" (shiftStmt n (opExpr op)),
     .assign "cat" (extended W.k3 (if s3 then .sel2 "r" (.num n) (.num W.r) else .lit 1 0) (.sel "r" (.num n))),
     .assign "res1" (.part "cat" W.c 0)]⟩

/-! ### Pieces -/

def vals (l : List (String × List Piece)) (n : String) : List Piece := (l.lookup n).getD []

def fifoVals (x : List Char) (a n : Nat) : List (String × List Piece) :=
  [("WIDTH", [.num a]), ("RES1", [.lit res1]), ("ARG1", [.lit arg1]), ("CLK", [.lit clk]), ("LATENCY", [.num n]), ("MODULE_NAME", [.ident x])]

def toks (ps : List Piece) : List Tok := ((scanP .idle ps).getD ([], .idle)).1

theorem fifo_scan (x : List Char) (a n : Nat) : scanP .idle (pieces (vals (fifoVals x a n)) fifoBody) =
    some (toks (pieces (vals (fifoVals x a n)) fifoBody), .idle) := by kernel_rfl

theorem fifo_parse (x : List Char) (a n k : Nat) (rest : List Tok) : pModule (k + 20) (toks (pieces (vals (fifoVals x a n)) fifoBody) ++ rest) =
    some (fifoMod (String.ofList x) a n, rest) := by kernel_rfl

def fillerVal (s : Bool) (x : List Char) (a : Nat) : List Piece := if s then [.lit x, .lit ['['], .num a, .lit [']']] else [.lit zeroBit]

def castVals (x : List Char) (a b k c n : Nat) (s : Bool) : List (String × List Piece) :=
  [("RES1", [.lit res1]), ("ARG1", [.lit arg1]), ("CLK", [.lit clk]), ("WIDTH2", [.num b]), ("WIDTH1", [.num a]), ("REPEAT", [.num k]), ("CAT", [.num c]),
   ("REPEAT_VAL", fillerVal s arg1 a), ("LATENCY", [.num n]), ("MODULE_NAME", [.ident x])]

theorem combCast_scan (x : List Char) (a b k c n : Nat) (s : Bool) : scanP .idle (pieces (vals (castVals x a b k c n s)) combCastBody) =
    some (toks (pieces (vals (castVals x a b k c n s)) combCastBody), .idle) := by cases s <;> kernel_rfl

theorem combCast_parse (x : List Char) (a b k c n : Nat) (s : Bool) (d : Nat) (rest : List Tok) :
    pModule (d + 20) (toks (pieces (vals (castVals x a b k c n s)) combCastBody) ++ rest) =
      some (combCastMod (String.ofList x) a b k c s, rest) := by cases s <;> kernel_rfl

theorem cast_scan (x : List Char) (a b k c n : Nat) (s : Bool) : scanP .idle (pieces (vals (castVals x a b k c n s)) castBody) =
    some (toks (pieces (vals (castVals x a b k c n s)) castBody), .idle) := by cases s <;> kernel_rfl

theorem cast_parse (x : List Char) (a b k c n : Nat) (s : Bool) (d : Nat) (rest : List Tok) :
    pModule (d + 20) (toks (pieces (vals (castVals x a b k c n s)) castBody) ++ rest) =
      some (castMod (String.ofList x) a b k c n s, rest) := by cases s <;> kernel_rfl

/-- `l`: what stands for the latency in `REPEAT_VAL3`. -/
def binVals (x : List Char) (op : Hw.VOp) (s1 s2 s3 : Bool) (W : Widths) (n : Nat) (l : List Piece) : List (String × List Piece) :=
  [("OP", [.op op]), ("RES1", [.lit res1]), ("ARG1", [.lit arg1]), ("ARG2", [.lit arg2]), ("CLK", [.lit clk]), ("SIGNED3", [.sgn s3]),
   ("WIDTH3", [.num W.c]), ("SIGNED1", [.sgn s1]), ("WIDTH1", [.num W.a]), ("SIGNED2", [.sgn s2]), ("WIDTH2", [.num W.b]), ("RWIDTH", [.num W.r]),
   ("PREPARED_WIDTH", [.num W.p]), ("REPEAT1", [.num W.k1]), ("REPEAT2", [.num W.k2]), ("REPEAT3", [.num W.k3]), ("CAT", [.num W.cat]),
   ("REPEAT_VAL1", fillerVal s3 arg1 W.a), ("REPEAT_VAL2", fillerVal s3 arg2 W.b),
   ("REPEAT_VAL3", if s3 then [.lit ['r', '[']] ++ l ++ [.lit [']', '['], .num W.r, .lit [']']] else [.lit zeroBit]), ("LATENCY", [.num n]),
   ("MODULE_NAME", [.ident x])]

theorem combBinary_scan (x : List Char) (op : Hw.VOp) (s1 s2 s3 : Bool) (W : Widths) (n : Nat) :
    scanP .idle (pieces (vals (binVals x op s1 s2 s3 W n [.lit ['-', '1']])) combBinaryBody) =
      some (toks (pieces (vals (binVals x op s1 s2 s3 W n [.lit ['-', '1']])) combBinaryBody), .idle) := by
  cases s1 <;> cases s2 <;> cases s3 <;> kernel_rfl

theorem combBinary_parse (x : List Char) (op : Hw.VOp) (s1 s2 s3 : Bool) (W : Widths) (n : Nat) (d : Nat) (rest : List Tok) :
    pModule (d + 20) (toks (pieces (vals (binVals x op s1 s2 s3 W n [.lit ['-', '1']])) combBinaryBody) ++ rest) =
      some (combBinaryMod (String.ofList x) op s1 s2 s3 W, rest) := by
  cases op <;> cases s1 <;> cases s2 <;> cases s3 <;> kernel_rfl

theorem binary_scan (x : List Char) (op : Hw.VOp) (s1 s2 s3 : Bool) (W : Widths) (n : Nat) :
    scanP .idle (pieces (vals (binVals x op s1 s2 s3 W n [.num n])) binaryBody) =
      some (toks (pieces (vals (binVals x op s1 s2 s3 W n [.num n])) binaryBody), .idle) := by
  cases s1 <;> cases s2 <;> cases s3 <;> kernel_rfl

theorem binary_parse (x : List Char) (op : Hw.VOp) (s1 s2 s3 : Bool) (W : Widths) (n : Nat) (d : Nat) (rest : List Tok) :
    pModule (d + 20) (toks (pieces (vals (binVals x op s1 s2 s3 W n [.num n])) binaryBody) ++ rest) =
      some (binaryMod (String.ofList x) op s1 s2 s3 W n, rest) := by
  cases op <;> cases s1 <;> cases s2 <;> cases s3 <;> kernel_rfl

end Verif.Vlog
