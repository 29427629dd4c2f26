import Verif.Dfcxx.Dfcir
import Verif.TopSort.Model
/-
Model of the graph-building API: what every public call of the DFCxx front end does to the graphs.

Sources, under /repo/src/model/dfcxx/lib/dfcxx: graph.cpp (all), kernel.cpp:31-35, 162-184, 247-269, kernel_meta.cpp:27-31,
kernel_storage.cpp, io.cpp, offset.cpp, control.cpp, constant.cpp, vars/{var,stream,scalar,constant}.cpp;
under include/dfcxx: kernel.h:78-93 (`instance`), node.h, channel.h.

* Every variable object owns exactly one node (each `build*` is followed by `addNode`), so one number stands for both.  The
  variable object outlives its node (`KernelStorage::deleteVariable`, kernel_storage.cpp:43-45, only forgets the pointer), so
  handles to deleted nodes remain readable and fail when looked up in a graph.
* Hash sets are lists; what is enumerated from them is used up to permutation.
* Types are compared by content.  The only pointer comparison (`cast`, var.cpp:108) is an input of the model.
* `resetNodeName` (graph.cpp:119-126) reads `it->second` after erasing `it`: undefined behaviour in C++ on every binding.  The
  model gives it the intended meaning (the value read before the erasure), which is what the usual allocator yields.
-/
namespace Verif.Dfcxx

/-- `Channel` (channel.h:16-26). -/
structure Chan where
  src : Nat
  tgt : Nat
  opInd : Nat
  connect : Bool
  deriving DecidableEq, Repr

/-- `Node` (node.h:59-73) with its variable (`DFVariableImpl`, var.h): `kern` is `meta`. -/
structure NodeRec where
  op : OpType
  data : NodeData
  ty : DFType
  kind : VarKind
  name : String
  kern : Nat
  ins : List Nat
  outs : List Nat
  deriving Repr

/-- `Graph` (graph.h:56-71) of one kernel under construction. -/
structure KGraph where
  id : Nat
  nodes : List Nat
  starts : List Nat
  names : List (String × Nat)
  deriving Repr

/-- The state of the program: `stack` is `Kernel::kernelStack` with the innermost kernel first; the last one is
`KernelMeta::top`, whose number is 0. -/
structure World where
  next : Nat
  nextC : Nat
  nextK : Nat
  node : Nat → NodeRec
  chan : Nat → Chan
  stack : List KGraph

def blankNode : NodeRec := ⟨.NONE, .none, .rawBits 0, .stream, "", 0, [], []⟩
def blankChan : Chan := ⟨0, 0, 0, false⟩

/-- The state after the constructor of the top kernel's base class (kernel.cpp:29-35). -/
def World.init : World := ⟨0, 0, 1, fun _ => blankNode, fun _ => blankChan, [⟨0, [], [], []⟩]⟩

/-- `isConstant()`. -/
def VarKind.isConst : VarKind → Bool
  | .const _ => true
  | _ => false

/-- The kernel with this number, if it is still being constructed. -/
def World.kernel (w : World) (k : Nat) : Option KGraph := w.stack.find? fun g => g.id == k

/-- `Graph::addNode` (graph.cpp:67-88) on the graph of kernel `k`, with the variable builders (var_builder.cpp). -/
def World.addNode (w : World) (k : Nat) (r : NodeRec) : World :=
  { w with
    next := w.next + 1
    node := fun m => if m = w.next then { r with kern := k, ins := [], outs := [] } else w.node m
    stack := w.stack.map fun g =>
      if g.id = k then
        { g with
          nodes := w.next :: g.nodes
          starts := if r.op = .IN ∨ r.op = .CONST then w.next :: g.starts else g.starts
          names := if r.name = "" then g.names else (r.name, w.next) :: g.names.filter fun p => p.1 ≠ r.name }
      else g }

/-- The second half of `addChannel` (graph.cpp:90-98). -/
def World.link (w : World) (src tgt opInd : Nat) (connect : Bool) : World :=
  { w with
    nextC := w.nextC + 1
    chan := fun c => if c = w.nextC then ⟨src, tgt, opInd, connect⟩ else w.chan c
    node := fun m =>
      let r := w.node m
      let r := if m = src then { r with outs := r.outs ++ [w.nextC] } else r
      if m = tgt then { r with ins := r.ins ++ [w.nextC] } else r }

/-- `Graph::addChannel` on variables (graph.cpp:100-108): a constant is looked up in the top graph, anything else in the graph
of kernel `k`; the assertion of line 92 fires if one is missing. -/
def World.addChannel (w : World) (k src tgt opInd : Nat) (connect : Bool) : Except Fault World :=
  match w.kernel (if (w.node src).kind.isConst then 0 else k), w.kernel k with
  | some gs, some gt => if src ∈ gs.nodes ∧ tgt ∈ gt.nodes then .ok (w.link src tgt opInd connect) else .error .assertFail
  | _, _ => .error .ub

/-- Add the operands of a new node, numbered from `i`. -/
def World.addOperands (w : World) (k tgt : Nat) : Nat → List Nat → Except Fault World
  | _, [] => .ok w
  | i, a :: rest => do
    let w ← w.addChannel k a tgt i false
    w.addOperands k tgt (i + 1) rest

/-- The pattern common to all operators: a new unnamed stream with its operands, in the graph of kernel `k` (stream.cpp:22-29,
59-65, 75-84, 110-126, the same in scalar.cpp; constant.cpp:74-81, 107-114, 168-178; var.cpp:85-91, 98-104, 112-117;
offset.cpp:18-24; control.cpp:22-32).  If `k` is no longer under construction the `meta` pointer dangles. -/
def World.newOp (w : World) (k : Nat) (op : OpType) (data : NodeData) (ty : DFType) (operands : List Nat) :
    Except Fault (World × Nat) :=
  match w.kernel k with
  | none => .error .ub
  | some _ => do
    let n := w.next
    let w ← (w.addNode k ⟨op, data, ty, .stream, "", k, [], []⟩).addOperands k n 0 operands
    return (w, n)

/-- Is this node a constant of this type and value?  (The predicate of constant.cpp:38-45.) -/
def World.isConstNode (w : World) (ty : DFType) (v : Word) (n : Nat) : Bool :=
  match (w.node n).op, (w.node n).kind with
  | .CONST, .const v' => (w.node n).ty.eq ty && v' == v
  | _, _ => false

/-- `DFConstant::createOrUseConst` (constant.cpp:35-54). -/
def World.createOrUseConst (w : World) (ty : DFType) (v : Word) : Except Fault (World × Nat) :=
  match w.kernel 0 with
  | none => .error .ub
  | some g =>
    match g.starts.find? (w.isConstNode ty v) with
    | some n => .ok (w, n)
    | none => .ok (w.addNode 0 ⟨.CONST, .none, ty, .const v, "", 0, [], []⟩, w.next)

/-- The number of the kernel whose code is running. -/
def World.cur (w : World) : Nat := match w.stack with | g :: _ => g.id | [] => 0

/-- Calls of the API.  Variables are numbers; see `World.exec` for the functions they stand for. -/
inductive Cmd where
  | input (scalar : Bool) (name : String) (ty : DFType)
  | output (scalar : Bool) (name : String) (ty : DFType)
  | newVar (scalar : Bool) (ty : DFType)
  | const (ty : DFType) (v : Word)
  | bin (op : OpType) (a b : Nat)
  | un (op : OpType) (a : Nat)
  | shift (left : Bool) (a : Nat) (bits : Nat)
  | bits (a : Nat) (first second : Nat)
  | cat (a b : Nat)
  | cast (a : Nat) (ty : DFType) (same : Bool)
  | mux (ctrl : Nat) (args : List Nat)
  | offset (a : Nat) (o : Int)
  | connect (a b : Nat)
  | beginInst
  | endInst (bindings : List (Nat × String))
  deriving Repr

/-- The variables a call mentions. -/
def Cmd.vars : Cmd → List Nat
  | .bin _ a b | .cat a b | .connect a b => [a, b]
  | .un _ a | .shift _ a _ | .bits a _ _ | .cast a _ _ | .offset a _ => [a]
  | .mux c args => c :: args
  | .endInst bs => bs.map Prod.fst
  | _ => []

/-- Binary operators of `DFVariable` (var.h:136-166). -/
def isBinaryOp (op : OpType) : Bool := op.isArith || op.isBitwise || op.isComparison

def varKind (scalar : Bool) : VarKind := if scalar then .scalar else .stream

/-- `DFConstant` folding of a unary operator (constant.cpp:128-148). -/
def foldUnary (F : FloatOps) (op : OpType) (ty : DFType) (v : Word) : Option (Except Fault Word) :=
  match op with
  | .NOT => some (.ok (~~~v))
  | .NEG => some (evalNeg F (kindByType ty) v)
  | _ => none

/-! ### Instances -/

/-- Make `s` the source of these channels (graph.cpp:135-138, 161-164). -/
def World.resource (w : World) (cs : List Nat) (s : Nat) : World :=
  { w with
    chan := fun c => if c ∈ cs then { w.chan c with src := s } else w.chan c
    node := fun m => if m = s then { w.node m with outs := (w.node m).outs ++ cs } else w.node m }

/-- `Graph::deleteNode` (graph.cpp:128-132) for the graph of kernel `k`. -/
def World.deleteNode (w : World) (k n : Nat) : World :=
  { w with stack := w.stack.map fun g =>
      if g.id = k then { g with nodes := g.nodes.filter (· ≠ n), starts := g.starts.filter (· ≠ n) } else g }

/-- `resetNodeName` (graph.cpp:119-126). -/
def World.resetName (w : World) (k : Nat) (name : String) (n : Nat) : World :=
  { w with
    node := fun m => if m = n then { w.node m with name := "" } else w.node m
    stack := w.stack.map fun g => if g.id = k then { g with names := g.names.filter fun p => p.1 ≠ name } else g }

/-- `Kernel::rebindInput` (kernel.cpp:162-167) with `Graph::rebindInput` (graph.cpp:134-139): `K` is the caller's kernel, `S`
the instance.  A source that is not in the caller's graph is a null pointer, dereferenced once per channel. -/
def World.rebindInput (w : World) (K S source input : Nat) : Except Fault World :=
  match w.kernel K with
  | none => .error .ub
  | some g =>
    if source ∈ g.nodes then .ok ((w.resource (w.node input).outs source).deleteNode S input)
    else if (w.node input).outs = [] then .ok (w.deleteNode S input)
    else .error .ub

/-- graph.cpp:158: remove a channel from the outputs of its source. -/
def World.unlinkOut (w : World) (s c : Nat) : World :=
  { w with node := fun m => if m = s then { w.node m with outs := (w.node m).outs.erase c } else w.node m }

/-- graph.cpp:170-171: redirect a channel to another target. -/
def World.retarget (w : World) (c t : Nat) : World :=
  { w with
    chan := fun d => if d = c then { w.chan d with tgt := t } else w.chan d
    node := fun m => if m = t then { w.node m with ins := (w.node m).ins ++ [c] } else w.node m }

/-- `Kernel::rebindOutput` (kernel.cpp:169-179) with `Graph::rebindOutput` (graph.cpp:141-177): the new state and the variable the
caller's handle refers to afterwards. -/
def World.rebindOutput (w : World) (K S output target : Nat) : Except Fault (World × Nat) :=
  match w.kernel K with
  | none => .error .ub
  | some g =>
    if target ∉ g.nodes then .error .ub                    -- null `target` dereferenced (142)
    else if (w.node target).ins ≠ [] then .error .assertFail    -- 142
    else match (w.node output).ins with
    | [c] =>
      let newSrc := (w.chan c).src
      if (w.node target).op = .NONE then
        if c ∉ (w.node newSrc).outs then .error .ub        -- 155: runs past the end
        else
          -- 158: remove the connection from the outputs of `newSrc`
          let w1 := w.unlinkOut newSrc c
          if newSrc = target then
            -- 161-164 push to the vector they iterate over; kernel.cpp:173 keeps the node
            if (w1.node target).outs ≠ [] then .error .ub else .ok (w1.deleteNode S output, target)
          else .ok (((w1.resource (w1.node target).outs newSrc).deleteNode K target).deleteNode S output, newSrc)
      else if (w.node target).op = .OUT then
        .ok ((w.retarget c target).deleteNode S output, target)
      else .error .assertFail                              -- 173
    | _ => .error .assertFail                              -- 145

/-- One iteration of the loop of `instance` (kernel.h:82-90). -/
def World.bindOne (w : World) (K S : Nat) (b : Nat × String) : Except Fault (World × Nat) :=
  match w.kernel S with
  | none => .error .ub
  | some g =>
    match g.names.lookup b.2 with
    | none => .error .throw
    | some n =>
      let w := w.resetName S b.2 n
      if (w.node n).op = .IN then do
        let w ← w.rebindInput K S b.1 n
        return (w, b.1)
      else w.rebindOutput K S n b.1

def World.bindAll (w : World) (K S : Nat) : List (Nat × String) → Except Fault (World × List Nat)
  | [] => .ok (w, [])
  | b :: bs => do
    let (w, h) ← w.bindOne K S b
    let (w, hs) ← w.bindAll K S bs
    return (w, h :: hs)

/-- `KernelMeta::transferFrom` (kernel_meta.cpp:27-31) with `Graph::resetMeta` (graph.cpp:179-183) and `Graph::transferFrom`
(graph.cpp:110-117), and the destruction of the instance's kernel object: only constants are added to the start nodes. -/
def World.transfer (w : World) : Except Fault World :=
  match w.stack with
  | S :: K :: rest =>
    .ok { w with
      node := fun m => if m ∈ S.nodes then { w.node m with kern := K.id } else w.node m
      stack := { K with
        nodes := K.nodes ++ S.nodes
        starts := K.starts ++ S.starts.filter fun n => (w.node n).op = .CONST } :: rest }
  | _ => .error .ub

/-- A call that returns one variable. -/
def retOne : Except Fault (World × Nat) → Except Fault (World × List Nat)
  | .ok (w, n) => .ok (w, [n])
  | .error e => .error e

/-- The effect of a call and the variables it returns (for `endInst`: what the bound handles refer to).  A number that is not a
variable is not a program. -/
def World.exec (F : FloatOps) (w : World) (cmd : Cmd) : Except Fault (World × List Nat) :=
  if ∃ v ∈ cmd.vars, w.next ≤ v then .error .ub else
  match cmd with
  | .input scalar name ty =>                                             -- io.cpp:19-37
    .ok (w.addNode w.cur ⟨.IN, .none, ty, varKind scalar, name, w.cur, [], []⟩, [w.next])
  | .output scalar name ty =>                                            -- io.cpp:59-77
    .ok (w.addNode w.cur ⟨.OUT, .none, ty, varKind scalar, name, w.cur, [], []⟩, [w.next])
  | .newVar scalar ty =>                                                 -- io.cpp:39-57
    .ok (w.addNode w.cur ⟨.NONE, .none, ty, varKind scalar, "", w.cur, [], []⟩, [w.next])
  | .const ty v => retOne (w.createOrUseConst ty v)                         -- constant.cpp (Constant::var)
  | .bin op a b =>                                                       -- stream.cpp:22-108, scalar.cpp, constant.cpp:56-201
    if isBinaryOp op then
      match (w.node a).kind, (w.node b).kind with
      | .const x, .const y =>
        match foldBinary F op (w.node a).ty x y with
        | some (.ok v) => retOne (w.createOrUseConst (w.node a).ty v)
        | some (.error e) => .error e
        | none => .error .ub
      | .const _, _ => retOne (w.newOp (w.node b).kern op .none (streamResultType op (w.node a).ty) [a, b])
      | _, _ => retOne (w.newOp (w.node a).kern op .none (streamResultType op (w.node a).ty) [a, b])
    else .error .ub
  | .un op a =>                                                          -- stream.cpp:59-73, constant.cpp:128-148
    if op = .NOT ∨ op = .NEG then
      match (w.node a).kind with
      | .const x =>
        match foldUnary F op (w.node a).ty x with
        | some (.ok v) => retOne (w.createOrUseConst (w.node a).ty v)
        | some (.error e) => .error e
        | none => .error .ub
      | _ => retOne (w.newOp (w.node a).kern op .none (w.node a).ty [a])
    else .error .ub
  | .shift left a bits =>                                                -- stream.cpp:110-126, constant.cpp:203-213; uint8_t
    match (w.node a).kind with
    | .const x =>
      match (if left then evalShl x (u8 bits) else evalShr x (u8 bits)) with
      | .ok v => retOne (w.createOrUseConst (w.node a).ty v)
      | .error e => .error e
    | _ => retOne (w.newOp (w.node a).kern (if left then .SHL else .SHR) (.bitShift (u8 bits)) (w.node a).ty [a])
  | .bits a first second =>                                              -- var.cpp:73-92
    match bitsRange (u16 first) (u16 second) (w.node a).ty.totalBits with
    | none => .error .throw
    | some (l, r, ty) => retOne (w.newOp (w.node a).kern .BITS (.bitsRange l r) ty [a])
  | .cat a b => retOne (w.newOp (w.node a).kern .CAT .none (catType (w.node a).ty (w.node b).ty) [a, b])    -- var.cpp:94-105
  | .cast a ty same =>                                                   -- var.cpp:107-118
    if same then .ok (w, [a]) else retOne (w.newOp (w.node a).kern .CAST .none ty [a])
  | .mux ctrl args =>                                                    -- control.cpp:18-33
    match args with
    | [] => .error .ub
    | a0 :: _ => retOne (w.newOp w.cur .MUX (.muxId 0) (w.node a0).ty (ctrl :: args))
  | .offset a o =>                                                       -- offset.cpp:16-25
    if (w.node a).kind = .stream then retOne (w.newOp w.cur .OFFSET (.offset o) (w.node a).ty [a]) else .error .throw
  | .connect a b => do                                                   -- var.cpp:69-71
    let w ← w.addChannel (w.node a).kern b a 0 true
    return (w, [])
  | .beginInst =>                                                        -- kernel.h:80 and kernel.cpp:29-35
    .ok ({ w with nextK := w.nextK + 1, stack := ⟨w.nextK, [], [], []⟩ :: w.stack }, [])
  | .endInst bindings =>                                                 -- kernel.h:82-92
    match w.stack with
    | S :: K :: _ => do
      let (w, hs) ← w.bindAll K.id S.id bindings
      let w ← w.transfer
      return (w, hs)
    | _ => .error .ub

/-- A history of calls. -/
def World.run (F : FloatOps) : World → List Cmd → Except Fault World
  | w, [] => .ok w
  | w, c :: cs => do
    let (w, _) ← w.exec F c
    w.run F cs

/-- `Kernel::check` (kernel.cpp:247-269) on the graph `g`. -/
def World.check (w : World) (g : KGraph) : Bool := g.nodes.all fun n => (w.node n).op ≠ .NONE

/-- What `topSort` reads of the graph `g` (utils.cpp:25-62). -/
def World.sortGraph (w : World) (g : KGraph) : TopSort.Graph Nat :=
  ⟨g.nodes, g.starts, fun n => if n ∈ g.nodes then (w.node n).outs.map fun c => (w.chan c).tgt else []⟩

/-- What the simulator and the DFCIR builder read of a node. -/
def World.view (w : World) (n : Nat) : NodeV :=
  let r := w.node n
  ⟨r.op, r.data, r.ty, r.kind, r.name, r.ins.map fun c => ((w.chan c).src, (w.chan c).connect)⟩

end Verif.Dfcxx
