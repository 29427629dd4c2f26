import Verif.Tpl.Chars
import Mathlib.Data.List.Basic
/-
Verilog (IEEE Std 1364-2005) as far as it is needed to read and to understand register transfer modules: tokens, a reader for a subset of the
grammar, and the meaning of the modules.  Nothing here refers to the project.

The subset: modules with ANSI port lists; vectors `[n:0]` and memories `[n:0]` of them; `wire`, `reg`, `integer`; continuous assignments; at most one
`always @ (posedge …)` per module, with `begin … end`, `for`, blocking and non-blocking assignments; expressions with at most one binary operator.  What is
outside the subset is rejected.  Values have no `x` and `z`: registers have an arbitrary value at first; an expression whose value would be `x` (a select out
of range) has no value.
-/
namespace Verif.Vlog

/-! ### Tokens -/

inductive Kw where
  | module | endmodule | input | output | wire | reg | signed | integer | assign | always | posedge | begin | «end» | «for»
  deriving DecidableEq, Repr

inductive Sym where
  | lpar | rpar | lbrack | rbrack | lbrace | rbrace | semi | colon | comma | at | eq | plus | minus | star | amp | bar | caret
  | lt | gt | le | ge | eqeq | ne | slash
  deriving DecidableEq, Repr

inductive Tok where
  | kw (k : Kw)
  | id (x : String)
  /-- An unsized decimal number. -/
  | num (n : Nat)
  /-- `size'base digits`. -/
  | based (size value : Nat)
  | sym (s : Sym)
  /-- Not a token (of the subset). -/
  | bad
  deriving DecidableEq, Repr

/-- The keywords of the subset. -/
def keywords : List (List Char × Kw) := [
  (chars% "module", .module), (chars% "endmodule", .endmodule), (chars% "input", .input), (chars% "output", .output), (chars% "wire", .wire),
  (chars% "reg", .reg), (chars% "signed", .signed), (chars% "integer", .integer), (chars% "assign", .assign), (chars% "always", .always),
  (chars% "posedge", .posedge), (chars% "begin", .begin), (chars% "end", .end), (chars% "for", .for)]

/-- The other reserved words (annex B). -/
def reserved : List (List Char) := [
  chars% "and", chars% "automatic", chars% "buf", chars% "bufif0", chars% "bufif1", chars% "case", chars% "casex", chars% "casez", chars% "cell",
  chars% "cmos", chars% "config", chars% "deassign", chars% "default", chars% "defparam", chars% "design", chars% "disable", chars% "edge", chars% "else",
  chars% "endcase", chars% "endconfig", chars% "endfunction", chars% "endgenerate", chars% "endprimitive", chars% "endspecify", chars% "endtable",
  chars% "endtask", chars% "event", chars% "force", chars% "forever", chars% "fork", chars% "function", chars% "generate", chars% "genvar", chars% "highz0",
  chars% "highz1", chars% "if", chars% "ifnone", chars% "incdir", chars% "include", chars% "initial", chars% "inout", chars% "instance", chars% "join",
  chars% "large", chars% "liblist", chars% "library", chars% "localparam", chars% "macromodule", chars% "medium", chars% "nand", chars% "negedge",
  chars% "nmos", chars% "nor", chars% "noshowcancelled", chars% "not", chars% "notif0", chars% "notif1", chars% "or", chars% "parameter", chars% "pmos",
  chars% "primitive", chars% "pull0", chars% "pull1", chars% "pulldown", chars% "pullup", chars% "pulsestyle_onevent", chars% "pulsestyle_ondetect",
  chars% "rcmos", chars% "real", chars% "realtime", chars% "release", chars% "repeat", chars% "rnmos", chars% "rpmos", chars% "rtran", chars% "rtranif0",
  chars% "rtranif1", chars% "scalared", chars% "showcancelled", chars% "small", chars% "specify", chars% "specparam", chars% "strong0", chars% "strong1",
  chars% "supply0", chars% "supply1", chars% "table", chars% "task", chars% "time", chars% "tran", chars% "tranif0", chars% "tranif1", chars% "tri",
  chars% "tri0", chars% "tri1", chars% "triand", chars% "trior", chars% "trireg", chars% "unsigned", chars% "use", chars% "uwire", chars% "vectored",
  chars% "wait", chars% "wand", chars% "weak0", chars% "weak1", chars% "while", chars% "wor", chars% "xnor", chars% "xor"]

def isBlank (c : Char) : Bool := c = ' ' || c = '\t' || c = '\n' || c = '\r' || c = '\x0c'

def wordStart (c : Char) : Bool := c.isAlpha || c = '_'
def wordChar (c : Char) : Bool := c.isAlphanum || c = '_' || c = '$'

/-- The token for a word. -/
def wordTok (w : List Char) : Tok :=
  match keywords.lookup w with
  | some k => .kw k
  | none => if reserved.contains w then .bad else .id (String.ofList w)

def digitVal (c : Char) : Nat :=
  if c.isDigit then c.toNat - 48 else if 'a' ≤ c ∧ c ≤ 'f' then c.toNat - 87 else c.toNat - 55

def isDigitOf (base : Nat) (c : Char) : Bool :=
  (c.isDigit || decide ('a' ≤ c ∧ c ≤ 'f') || decide ('A' ≤ c ∧ c ≤ 'F')) && decide (digitVal c < base)

/-- A number from its digits. -/
def value (base : Nat) (w : List Char) : Nat := w.foldl (fun a c => base * a + digitVal c) 0

def baseOf (c : Char) : Option Nat :=
  if c = 'h' then some 16 else if c = 'd' then some 10 else if c = 'o' then some 8 else if c = 'b' then some 2 else none

/-- Where the lexical analysis is: what it has read of a token, in reverse. -/
inductive St where
  | idle
  | word (w : List Char)
  | num (w : List Char)
  /-- After `size'`. -/
  | tick (w : List Char)
  | based (w : List Char) (base : Nat) (v : List Char)
  /-- After `<`, `>`, `=`, `!`, `/`. -/
  | op (c : Char)
  | comment
  deriving DecidableEq, Repr

def single (c : Char) : Option Sym :=
  if c = '(' then some .lpar else if c = ')' then some .rpar else if c = '[' then some .lbrack else if c = ']' then some .rbrack
  else if c = '{' then some .lbrace else if c = '}' then some .rbrace else if c = ';' then some .semi else if c = ':' then some .colon
  else if c = ',' then some .comma else if c = '@' then some .at else if c = '+' then some .plus else if c = '-' then some .minus
  else if c = '*' then some .star else if c = '&' then some .amp else if c = '|' then some .bar else if c = '^' then some .caret else none

/-- An operator of one character that could have been the beginning of one of two. -/
def opOne (c : Char) : Tok :=
  if c = '<' then .sym .lt else if c = '>' then .sym .gt else if c = '=' then .sym .eq else if c = '/' then .sym .slash else .bad

def opEq (c : Char) : Tok :=
  if c = '<' then .sym .le else if c = '>' then .sym .ge else if c = '=' then .sym .eqeq else if c = '!' then .sym .ne else .bad

/-- The first character of a token. -/
def start (c : Char) : List Tok × St :=
  if isBlank c then ([], .idle)
  else if wordStart c then ([], .word [c])
  else if c.isDigit then ([], .num [c])
  else if c = '<' ∨ c = '>' ∨ c = '=' ∨ c = '!' ∨ c = '/' then ([], .op c)
  else match single c with
    | some s => ([.sym s], .idle)
    | none => ([.bad], .idle)

/-- `t`, then what `c` begins. -/
def after (t : Tok) (c : Char) : List Tok × St := (t :: (start c).1, (start c).2)

def step : St → Char → List Tok × St
  | .idle, c => start c
  | .word w, c => if wordChar c then ([], .word (c :: w)) else after (wordTok w.reverse) c
  | .num w, c =>
    if c.isDigit then ([], .num (c :: w)) else if c = '\'' then ([], .tick w) else after (.num (value 10 w.reverse)) c
  | .tick w, c => match baseOf c with
    | some b => ([], .based w b [])
    | none => ([.bad], .idle)
  | .based w b v, c =>
    if isDigitOf b c then ([], .based w b (c :: v))
    else after (if v = [] then .bad else .based (value 10 w.reverse) (value b v.reverse)) c
  | .op o, c =>
    if o = '/' then (if c = '/' then ([], .comment) else if c = '*' then ([.bad], .idle) else after (opOne o) c)
    else if c = '=' then ([opEq o], .idle) else after (opOne o) c
  | .comment, c => ([], if c = '\n' then .idle else .comment)

def scan : St → List Char → List Tok × St
  | st, [] => ([], st)
  | st, c :: cs => ((step st c).1 ++ (scan (step st c).2 cs).1, (scan (step st c).2 cs).2)

/-- The token that ends with the text. -/
def flush : St → List Tok
  | .idle | .comment => []
  | .word w => [wordTok w.reverse]
  | .num w => [.num (value 10 w.reverse)]
  | .tick _ => [.bad]
  | .based w b v => [if v = [] then .bad else .based (value 10 w.reverse) (value b v.reverse)]
  | .op o => [opOne o]

/-- The tokens of a text. -/
def lex (t : List Char) : List Tok := (scan .idle t).1 ++ flush (scan .idle t).2

/-! ### Syntax -/

inductive BinOp where
  | add | sub | mul | and | or | xor | lt | le | gt | ge | eq | ne
  deriving DecidableEq, Repr

inductive Expr where
  /-- An unsized decimal number. -/
  | num (n : Nat)
  | lit (size value : Nat)
  | id (x : String)
  /-- `x[i]`. -/
  | sel (x : String) (i : Expr)
  /-- `x[i][j]`. -/
  | sel2 (x : String) (i j : Expr)
  /-- `x[hi:lo]`. -/
  | part (x : String) (hi lo : Nat)
  | neg (a : Expr)
  /-- `{a}`, and `{a, b, …}` with `b` standing for `{b, …}`. -/
  | cat1 (a : Expr)
  | cat (a b : Expr)
  /-- `{n{…}}`. -/
  | rep (n : Nat) (a : Expr)
  | bin (op : BinOp) (a b : Expr)
  deriving DecidableEq, Repr

inductive LVal where
  | id (x : String)
  | sel (x : String) (i : Expr)
  deriving DecidableEq, Repr

/-- Statements; `for (a; c; b) s` is `a`, then, as long as `c` holds, `s` and `b`. -/
inductive Stmt where
  | skip
  | seq (a b : Stmt)
  | blocking (l : LVal) (e : Expr)
  | nonblocking (l : LVal) (e : Expr)
  | loop (c : Expr) (s : Stmt)
  deriving DecidableEq, Repr

/-- A vector has width `msb + 1`; without a range 1. -/
structure Port where
  output : Bool
  signed : Bool
  width : Nat
  name : String
  deriving DecidableEq, Repr

inductive Item where
  | wire (signed : Bool) (width : Nat) (x : String)
  | reg (signed : Bool) (width : Nat) (x : String)
  /-- A memory of `depth` words. -/
  | mem (signed : Bool) (width : Nat) (x : String) (depth : Nat)
  | integer (x : String)
  | assign (x : String) (e : Expr)
  | always (clk : String) (s : Stmt)
  deriving DecidableEq, Repr

structure Mod where
  name : String
  ports : List Port
  items : List Item
  deriving DecidableEq, Repr

/-! ### The reader -/

abbrev P (α : Type) := Option (α × List Tok)

def binOp : Sym → Option BinOp
  | .plus => some .add
  | .minus => some .sub
  | .star => some .mul
  | .amp => some .and
  | .bar => some .or
  | .caret => some .xor
  | .lt => some .lt
  | .le => some .le
  | .gt => some .gt
  | .ge => some .ge
  | .eqeq => some .eq
  | .ne => some .ne
  | _ => none

mutual

/-- Operands.  The first argument bounds the depth. -/
def pPrimary : Nat → List Tok → P Expr
  | 0, _ => none
  | _ + 1, .num n :: ts => some (.num n, ts)
  | _ + 1, .based s v :: ts => some (.lit s v, ts)
  | d + 1, .sym .minus :: ts => match pPrimary d ts with
    | some (a, ts) => some (.neg a, ts)
    | none => none
  | d + 1, .sym .lbrace :: .num n :: .sym .lbrace :: ts => match pList d ts with
    | some (a, .sym .rbrace :: ts) => some (.rep n a, ts)
    | _ => none
  | d + 1, .sym .lbrace :: ts => pList d ts
  | _ + 1, .id x :: .sym .lbrack :: .num hi :: .sym .colon :: .num lo :: .sym .rbrack :: ts => some (.part x hi lo, ts)
  | d + 1, .id x :: .sym .lbrack :: ts => match pExpr d ts with
    | some (i, .sym .rbrack :: .sym .lbrack :: ts) => match pExpr d ts with
      | some (j, .sym .rbrack :: ts) => some (.sel2 x i j, ts)
      | _ => none
    | some (i, .sym .rbrack :: ts) => some (.sel x i, ts)
    | _ => none
  | _ + 1, .id x :: ts => some (.id x, ts)
  | _ + 1, _ => none

/-- What follows `{`, up to the `}`. -/
def pList : Nat → List Tok → P Expr
  | 0, _ => none
  | d + 1, ts => match pExpr d ts with
    | some (a, .sym .comma :: ts) => match pList d ts with
      | some (b, ts) => some (.cat a b, ts)
      | none => none
    | some (a, .sym .rbrace :: ts) => some (.cat1 a, ts)
    | _ => none

/-- Expressions with at most one binary operator. -/
def pExpr : Nat → List Tok → P Expr
  | 0, _ => none
  | d + 1, ts => match pPrimary d ts with
    | some (a, .sym s :: ts') => match binOp s with
      | some o => match pPrimary d ts' with
        | some (b, ts'') => some (.bin o a b, ts'')
        | none => none
      | none => some (a, .sym s :: ts')
    | some r => some r
    | none => none

end

def pLVal (d : Nat) : List Tok → P LVal
  | .id x :: .sym .lbrack :: ts => match pExpr d ts with
    | some (i, .sym .rbrack :: ts) => some (.sel x i, ts)
    | _ => none
  | .id x :: ts => some (.id x, ts)
  | _ => none

/-- `l = e` and `l <= e`. -/
def pAssignment (d : Nat) (ts : List Tok) : P Stmt :=
  match pLVal d ts with
  | some (l, .sym .eq :: ts) => match pExpr d ts with
    | some (e, ts) => some (.blocking l e, ts)
    | none => none
  | some (l, .sym .le :: ts) => match pExpr d ts with
    | some (e, ts) => some (.nonblocking l e, ts)
    | none => none
  | _ => none

mutual

def pStmt : Nat → List Tok → P Stmt
  | 0, _ => none
  | d + 1, .kw .begin :: ts => pBlock d ts
  | d + 1, .kw .for :: .sym .lpar :: ts => match pAssignment d ts with
    | some (a, .sym .semi :: ts) => match pExpr d ts with
      | some (c, .sym .semi :: ts) => match pAssignment d ts with
        | some (b, .sym .rpar :: ts) => match pStmt d ts with
          | some (s, ts) => some (.seq a (.loop c (.seq s b)), ts)
          | none => none
        | _ => none
      | _ => none
    | _ => none
  | d + 1, ts => match pAssignment d ts with
    | some (s, .sym .semi :: ts) => some (s, ts)
    | _ => none

/-- What follows `begin`, up to the `end`. -/
def pBlock : Nat → List Tok → P Stmt
  | 0, _ => none
  | _ + 1, .kw .end :: ts => some (.skip, ts)
  | d + 1, ts => match pStmt d ts with
    | some (a, ts) => match pBlock d ts with
      | some (b, ts) => some (.seq a b, ts)
      | none => none
    | none => none

end

def pSigned : List Tok → Bool × List Tok
  | .kw .signed :: ts => (true, ts)
  | ts => (false, ts)

/-- `[n:0]`, or nothing: the width. -/
def pRange : List Tok → P Nat
  | .sym .lbrack :: .num n :: .sym .colon :: .num 0 :: .sym .rbrack :: ts => some (n + 1, ts)
  | .sym .lbrack :: _ => none
  | ts => some (1, ts)

/-- `[n:0]` or nothing, and a name. -/
def pDeclared (ts : List Tok) : P (Bool × Nat × String) :=
  match pSigned ts with
  | (s, ts) => match pRange ts with
    | some (w, .id x :: ts) => some ((s, w, x), ts)
    | _ => none

/-- A port list, up to `);`. -/
def pPorts : Nat → List Tok → P (List Port)
  | 0, _ => none
  | d + 1, .kw k :: ts => match (if k = .input then some false else if k = .output then some true else none), pDeclared ts with
    | some o, some ((s, w, x), .sym .comma :: ts) => match pPorts d ts with
      | some (ps, ts) => some (⟨o, s, w, x⟩ :: ps, ts)
      | none => none
    | some o, some ((s, w, x), .sym .rpar :: .sym .semi :: ts) => some ([⟨o, s, w, x⟩], ts)
    | _, _ => none
  | _ + 1, _ => none

def pItem (d : Nat) : List Tok → P Item
  | .kw .wire :: ts => match pDeclared ts with
    | some ((s, w, x), .sym .semi :: ts) => some (.wire s w x, ts)
    | _ => none
  | .kw .reg :: ts => match pDeclared ts with
    | some ((s, w, x), .sym .semi :: ts) => some (.reg s w x, ts)
    | some ((s, w, x), .sym .lbrack :: .num n :: .sym .colon :: .num 0 :: .sym .rbrack :: .sym .semi :: ts) => some (.mem s w x (n + 1), ts)
    | _ => none
  | .kw .integer :: .id x :: .sym .semi :: ts => some (.integer x, ts)
  | .kw .assign :: .id x :: .sym .eq :: ts => match pExpr d ts with
    | some (e, .sym .semi :: ts) => some (.assign x e, ts)
    | _ => none
  | .kw .always :: .sym .at :: .sym .lpar :: .kw .posedge :: .id c :: .sym .rpar :: ts => match pStmt d ts with
    | some (s, ts) => some (.always c s, ts)
    | none => none
  | _ => none

/-- Items, up to `endmodule`. -/
def pItems : Nat → List Tok → P (List Item)
  | 0, _ => none
  | _ + 1, .kw .endmodule :: ts => some ([], ts)
  | d + 1, ts => match pItem d ts with
    | some (i, ts) => match pItems d ts with
      | some (is, ts) => some (i :: is, ts)
      | none => none
    | none => none

def pModule (d : Nat) : List Tok → P Mod
  | .kw .module :: .id x :: .sym .lpar :: ts => match pPorts d ts with
    | some (ps, ts) => match pItems d ts with
      | some (is, ts) => some (⟨x, ps, is⟩, ts)
      | none => none
    | none => none
  | _ => none

/-- Modules, up to the end. -/
def pSource : Nat → List Tok → Option (List Mod)
  | _, [] => some []
  | 0, _ => none
  | d + 1, ts => match pModule d ts with
    | some (m, ts) => (pSource d ts).map (m :: ·)
    | none => none

/-- The modules of a source text. -/
def read (t : List Char) : Option (List Mod) := pSource ((lex t).length + 1) (lex t)

/-! ### Meaning -/

inductive Var where
  | vec (signed : Bool) (width : Nat)
  | mem (signed : Bool) (width depth : Nat)
  deriving DecidableEq, Repr

def Port.var (p : Port) : String × Var := (p.name, .vec p.signed p.width)

def Item.var : Item → Option (String × Var)
  | .wire s w x | .reg s w x => some (x, .vec s w)
  | .mem s w x d => some (x, .mem s w d)
  | .integer x => some (x, .vec true 32)
  | _ => none

/-- What a module declares. -/
def Mod.vars (m : Mod) : List (String × Var) := m.ports.map Port.var ++ m.items.filterMap Item.var

/-- The declaration of a name. -/
abbrev Scope := String → Option Var

def Mod.scope (m : Mod) : Scope := fun x => m.vars.lookup x

def BinOp.isComp : BinOp → Bool
  | .lt | .le | .gt | .ge | .eq | .ne => true
  | _ => false

/-- Does the size of the expression depend on an unsized number? -/
def unsized : Expr → Bool
  | .num _ => true
  | .neg a => unsized a
  | .bin op a b => !op.isComp && (unsized a || unsized b)
  | _ => false

/-- The self-determined size (table 5-22); `none`: the expression is not legal. -/
def size (D : Scope) : Expr → Option Nat
  | .num n => if n < 2 ^ 31 then some 32 else none
  | .lit s v => if 0 < s ∧ v < 2 ^ s then some s else none
  | .id x => match D x with
    | some (.vec _ w) => some w
    | _ => none
  | .sel x i => match D x, size D i with
    | some (.vec _ _), some _ => some 1
    | some (.mem _ w _), some _ => some w
    | _, _ => none
  | .sel2 x i j => match D x, size D i, size D j with
    | some (.mem _ _ _), some _, some _ => some 1
    | _, _, _ => none
  | .part x hi lo => match D x with
    | some (.vec _ w) => if lo ≤ hi ∧ hi < w then some (hi - lo + 1) else none
    | _ => none
  | .neg a => size D a
  | .cat1 a => if unsized a then none else size D a
  | .cat a b => if unsized a then none else match size D a, size D b with
    | some m, some n => some (m + n)
    | _, _ => none
  | .rep n a => (size D a).map (n * ·)
  | .bin op a b => match size D a, size D b with
    | some m, some n => some (if op.isComp then 1 else max m n)
    | _, _ => none

/-- Is the expression signed (5.5.1)? -/
def signed (D : Scope) : Expr → Bool
  | .num _ => true
  | .id x => match D x with
    | some (.vec s _) => s
    | _ => false
  | .sel x _ => match D x with
    | some (.mem s _ _) => s
    | _ => false
  | .neg a => signed D a
  | .bin op a b => !op.isComp && (signed D a && signed D b)
  | _ => false

/-- Values of vectors and of the words of memories, as bit patterns. -/
structure Store where
  vec : String → Nat
  mem : String → Nat → Nat

/-- Two's complement. -/
def toInt (s : Bool) (w v : Nat) : Int := if s ∧ 2 ^ w ≤ 2 * v then (v : Int) - 2 ^ w else v

/-- A pattern of `w` bits extended to `W` bits, by its sign if `s`. -/
def extend (s : Bool) (w W v : Nat) : Nat := (toInt s w v % 2 ^ W).toNat

/-- The operators on patterns of `W` bits; `s`: are both operands signed? -/
def operate (op : BinOp) (s : Bool) (W a b : Nat) : Nat :=
  match op with
  | .add => (a + b) % 2 ^ W
  | .sub => (((a : Int) - b) % 2 ^ W).toNat
  | .mul => a * b % 2 ^ W
  | .and => a &&& b
  | .or => a ||| b
  | .xor => a ^^^ b
  | .lt => if toInt s W a < toInt s W b then 1 else 0
  | .le => if toInt s W a ≤ toInt s W b then 1 else 0
  | .gt => if toInt s W a > toInt s W b then 1 else 0
  | .ge => if toInt s W a ≥ toInt s W b then 1 else 0
  | .eq => if a = b then 1 else 0
  | .ne => if a ≠ b then 1 else 0

/-- `n` copies of a pattern of `w` bits. -/
def copies (w v : Nat) : Nat → Nat
  | 0 => 0
  | n + 1 => copies w v n * 2 ^ w + v

/-- The value of an expression in a context of size `W`, signed if `s` (5.4, 5.5): operands are extended to the size of the context, by their sign if the
context is signed; operators other than comparisons pass the context on; comparisons make their own, as do selects, concatenations and replications for what
is in them.  `none`: not legal, or a select out of range. -/
def eval (D : Scope) (σ : Store) : Nat → Bool → Expr → Option Nat
  | W, s, .num n => if n < 2 ^ 31 then some (extend s 32 W n) else none
  | W, s, .lit k v => if 0 < k ∧ v < 2 ^ k then some (extend s k W v) else none
  | W, s, .id x => match D x with
    | some (.vec _ w) => some (extend s w W (σ.vec x))
    | _ => none
  | W, s, .sel x i => match size D i with
    | none => none
    | some n => match (eval D σ n (signed D i) i).map (toInt (signed D i) n), D x with
      | some k, some (.vec _ w) => if 0 ≤ k ∧ k < w then some (extend s 1 W (σ.vec x / 2 ^ k.toNat % 2)) else none
      | some k, some (.mem _ w d) => if 0 ≤ k ∧ k < d then some (extend s w W (σ.mem x k.toNat)) else none
      | _, _ => none
  | W, s, .sel2 x i j => match size D i, size D j with
    | some n, some m => match (eval D σ n (signed D i) i).map (toInt (signed D i) n), (eval D σ m (signed D j) j).map (toInt (signed D j) m), D x with
      | some k, some l, some (.mem _ w d) =>
        if 0 ≤ k ∧ k < d ∧ 0 ≤ l ∧ l < w then some (extend s 1 W (σ.mem x k.toNat / 2 ^ l.toNat % 2)) else none
      | _, _, _ => none
    | _, _ => none
  | W, s, .part x hi lo => match D x with
    | some (.vec _ w) => if lo ≤ hi ∧ hi < w then some (extend s (hi - lo + 1) W (σ.vec x / 2 ^ lo % 2 ^ (hi - lo + 1))) else none
    | _ => none
  | W, s, .neg a => (eval D σ W s a).map fun v => ((-(v : Int)) % 2 ^ W).toNat
  | W, s, .cat1 a => match size D a with
    | some n => if unsized a then none else (eval D σ n (signed D a) a).map (extend s n W)
    | none => none
  | W, s, .cat a b => match size D a, size D b with
    | some m, some n => if unsized a then none else match eval D σ m (signed D a) a, eval D σ n (signed D b) b with
      | some u, some v => some (extend s (m + n) W (u * 2 ^ n + v))
      | _, _ => none
    | _, _ => none
  | W, s, .rep k a => match size D a with
    | some n => (eval D σ n (signed D a) a).map fun v => extend s (k * n) W (copies n v k)
    | none => none
  | W, s, .bin op a b =>
    if op.isComp then match size D a, size D b with
      | some m, some n => match eval D σ (max m n) (signed D a && signed D b) a, eval D σ (max m n) (signed D a && signed D b) b with
        | some u, some v => some (extend s 1 W (operate op (signed D a && signed D b) (max m n) u v))
        | _, _ => none
      | _, _ => none
    else match eval D σ W s a, eval D σ W s b with
      | some u, some v => some (operate op s W u v)
      | _, _ => none

/-- The value of `e` assigned to `w` bits (5.4.1): the context has the larger of the two sizes; the low bits are kept. -/
def assigned (D : Scope) (σ : Store) (w : Nat) (e : Expr) : Option Nat :=
  match size D e with
  | some n => (eval D σ (max w n) (signed D e) e).map (· % 2 ^ w)
  | none => none

/-- The value of an expression by itself. -/
def self (D : Scope) (σ : Store) (e : Expr) : Option Nat :=
  match size D e with
  | some n => eval D σ n (signed D e) e
  | none => none

/-- An assignment to be performed. -/
inductive Update where
  | vec (x : String) (v : Nat)
  | mem (x : String) (i v : Nat)
  deriving DecidableEq, Repr

def Update.apply (σ : Store) : Update → Store
  | .vec x v => { σ with vec := fun y => if y = x then v else σ.vec y }
  | .mem x i v => { σ with mem := fun y j => if y = x ∧ j = i then v else σ.mem y j }

/-- The assignment of `e` to `l` now. -/
def update (D : Scope) (σ : Store) : LVal → Expr → Option Update
  | .id x, e => match D x with
    | some (.vec _ w) => (assigned D σ w e).map (.vec x)
    | _ => none
  | .sel x i, e => match D x, size D i with
    | some (.mem _ w d), some n => match (self D σ i).map (toInt (signed D i) n), assigned D σ w e with
      | some k, some v => if 0 ≤ k ∧ k < d then some (.mem x k.toNat v) else none
      | _, _ => none
    | _, _ => none

/-- Executing a statement: the store after it, and the assignments it leaves for the end of the time step. -/
inductive Exec (D : Scope) : Stmt → Store → Store → List Update → Prop
  | skip {σ} : Exec D .skip σ σ []
  | seq {a b σ σ' σ'' us vs} : Exec D a σ σ' us → Exec D b σ' σ'' vs → Exec D (.seq a b) σ σ'' (us ++ vs)
  | blocking {l e σ u} : update D σ l e = some u → Exec D (.blocking l e) σ (u.apply σ) []
  | nonblocking {l e σ u} : update D σ l e = some u → Exec D (.nonblocking l e) σ σ [u]
  | stop {c s σ} : self D σ c = some 0 → Exec D (.loop c s) σ σ []
  | turn {c s σ σ' σ'' us vs v} : self D σ c = some v → v ≠ 0 → Exec D s σ σ' us → Exec D (.loop c s) σ' σ'' vs →
    Exec D (.loop c s) σ σ'' (us ++ vs)

/-- What a clock edge makes of the store. -/
def Edge (D : Scope) (s : Stmt) (σ τ : Store) : Prop := ∃ σ' us, Exec D s σ σ' us ∧ τ = us.foldl Update.apply σ'

def Item.procedural : Item → List String
  | .reg _ _ x | .mem _ _ x _ | .integer x => [x]
  | _ => []

/-- The variables that keep their value (`reg` and `integer`). -/
def Mod.regs (m : Mod) : List String := m.items.flatMap Item.procedural

def Mod.procs (m : Mod) : List Stmt := m.items.filterMap fun | .always _ s => some s | _ => none

/-- A run of a module: `ρ t` is the store during clock cycle `t`, before the edge that ends it.  The inputs are free; what is assigned continuously always
has the value assigned; the registers change at the edges only, as the `always` blocks say. -/
structure Run (m : Mod) (ρ : Nat → Store) : Prop where
  fits : ∀ t x s w, m.scope x = some (.vec s w) → (ρ t).vec x < 2 ^ w
  fitsMem : ∀ t x s w d, m.scope x = some (.mem s w d) → ∀ i < d, (ρ t).mem x i < 2 ^ w
  assigns : ∀ x e, .assign x e ∈ m.items → ∀ t, ∃ s w, m.scope x = some (.vec s w) ∧ assigned m.scope (ρ t) w e = some ((ρ t).vec x)
  edges : ∀ s ∈ m.procs, ∀ t, ∃ τ, Edge m.scope s (ρ t) τ ∧ ∀ x ∈ m.regs, (ρ (t + 1)).vec x = τ.vec x ∧ (ρ (t + 1)).mem x = τ.mem x

/-! ### Legality -/

/-- What is assigned where. -/
def Stmt.legal (D : Scope) (regs : List String) : Stmt → Bool
  | .skip => true
  | .seq a b => a.legal D regs && b.legal D regs
  | .blocking (.id x) e | .nonblocking (.id x) e => regs.contains x && (match D x with | some (.vec _ _) => true | _ => false) && (size D e).isSome
  | .blocking (.sel x i) e | .nonblocking (.sel x i) e =>
    regs.contains x && (match D x with | some (.mem _ _ _) => true | _ => false) && (size D i).isSome && (size D e).isSome
  | .loop c s => (size D c).isSome && s.legal D regs

/-- Names are declared once; nets are assigned once and continuously, registers in `always` blocks, of which there is at most one, clocked by an input of
one bit; all expressions have a size, and those assigned continuously a positive one. -/
structure Legal (m : Mod) : Prop where
  distinct : (m.vars.map Prod.fst).Nodup
  once : (m.items.filterMap fun | .assign x _ => some x | _ => none).Nodup
  nets : ∀ x e, .assign x e ∈ m.items → x ∉ m.regs ∧ (∀ p ∈ m.ports, p.output = false → p.name ≠ x) ∧ (∃ s w, m.scope x = some (.vec s w)) ∧
    ∃ n, size m.scope e = some n ∧ 0 < n
  driven : ∀ p ∈ m.ports, p.output = true → ∃ e, .assign p.name e ∈ m.items
  single : m.procs.length ≤ 1
  clocked : ∀ c s, .always c s ∈ m.items → s.legal m.scope m.regs = true ∧ ∃ p ∈ m.ports, p = ⟨false, false, 1, c⟩

end Verif.Vlog
