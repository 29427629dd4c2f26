import Verif.Dfcxx.WorldNodes
/-
Model of memory management in the DFCxx front end (C85): which objects the library deletes, and when.

Sources, under /repo/src/model/dfcxx: lib/dfcxx/graph.cpp:18-27 (`Graph::~Graph`), 110-117 (`Graph::transferFrom`), 128-132
(`Graph::deleteNode`); lib/dfcxx/kernel.cpp:162-184 (`rebindInput`, `rebindOutput`, `Kernel::deleteNode`);
lib/dfcxx/kernel_meta.cpp:27-31; lib/dfcxx/kernel_storage.cpp:29-55; include/dfcxx/kernel.h:78-93 (`instance`) and 98-103;
include/dfcxx/kernel_meta.h:19-34.

* The objects are those allocated by `new` for the graph: variables, nodes, channels.  Types and the temporary node of
  `findNode` (graph.cpp:38-46) are not modelled; the former are never deleted.
* The variable and the node of one number are different objects: the variable belongs to a storage, the node to a graph.
* Deleting an object twice is recorded as such (`freed` is a list).
-/
namespace Verif.Dfcxx

/-- An object on the heap. -/
inductive Obj where
  | var (n : Nat)
  | node (n : Nat)
  | chan (c : Nat)
  deriving DecidableEq, Repr

/-- The state of the program with its storages (`KernelStorage::variables` of each kernel) and the objects deleted so far, in
order. -/
structure Heap where
  w : World
  store : Nat → List Nat
  freed : List Obj

/-- The state after the constructor of the top kernel (kernel.cpp:29-35). -/
def Heap.init : Heap := ⟨World.init, fun _ => [], []⟩

/-- The calls of `Kernel::deleteNode` made for one binding, in order, with the kernel they are made on: kernel.h:82-90,
kernel.cpp:162-179, and graph.cpp:141-177 for whether `targetNode != node`. -/
def World.bindDeletes (w : World) (K S : Nat) (b : Nat × String) : List (Nat × Nat) :=
  match w.kernel S with
  | none => []
  | some g =>
    match g.names.lookup b.2 with
    | none => []
    | some n =>
      if (w.node n).op = .IN then [(S, n)]                               -- kernel.cpp:166
      else match (w.node n).ins with
        | [c] => if (w.node b.1).op = .NONE ∧ (w.chan c).src ≠ b.1 then [(K, b.1), (S, n)]     -- 174, 177
                 else [(S, n)]                                           -- 177
        | _ => []

/-- `Kernel::deleteNode` (kernel.cpp:181-184): the storage forgets the variable (kernel_storage.cpp:41-43, without deleting it), the
node is deleted (graph.cpp:128-132; its removal from the graph is part of `World.bindOne`). -/
def Heap.deleteNode (h : Heap) (k n : Nat) : Heap :=
  { h with
    store := fun j => if j = k then (h.store j).filter (· ≠ n) else h.store j
    freed := h.freed ++ [.node n] }

/-- One binding of an instance. -/
def Heap.bindOne (h : Heap) (K S : Nat) (b : Nat × String) : Except Fault (Heap × Nat) := do
  let (w, hd) ← h.w.bindOne K S b
  return ({ (h.w.bindDeletes K S b).foldl (fun h p => h.deleteNode p.1 p.2) h with w := w }, hd)

def Heap.bindAll (h : Heap) (K S : Nat) : List (Nat × String) → Except Fault (Heap × List Nat)
  | [] => .ok (h, [])
  | b :: bs => do
    let (h, hd) ← h.bindOne K S b
    let (h, hds) ← h.bindAll K S bs
    return (h, hd :: hds)

/-- What the destructor of a kernel deletes: first its storage (`KernelStorage::~KernelStorage`, kernel_storage.cpp:45-50; members are
destroyed in reverse order, kernel_meta.h:22-23), then its graph (`Graph::~Graph`, graph.cpp:18-27), in the order in which the hash
sets are enumerated. -/
def World.destroys (w : World) (vars nodes : List Nat) : List Obj :=
  vars.map .var ++ nodes.flatMap fun n => (w.node n).outs.map .chan ++ [.node n]

/-- The end of `instance` (kernel.h:92-93): the storages and the graphs are merged (`unordered_set::merge` leaves behind what the
target already has, kernel_storage.cpp:52-55, graph.cpp:111), then the instance's kernel object is destroyed with what is
left in it. -/
def Heap.transfer (h : Heap) : Except Fault Heap :=
  match h.w.stack with
  | S :: K :: _ => do
    let w ← h.w.transfer
    return ⟨w, fun k => if k = S.id then []
                 else if k = K.id then h.store k ++ (h.store S.id).filter (· ∉ h.store k) else h.store k,
               h.freed ++ h.w.destroys ((h.store S.id).filter (· ∈ h.store K.id)) (S.nodes.filter (· ∈ K.nodes))⟩
  | _ => .error .ub

/-- A call: a call that creates a variable adds it to the storage of the kernel whose graph gets its node (io.cpp:19-77,
offset.cpp:18-24, control.cpp:22-32, constant.cpp:47-53, 74-81, 107-114, 168-178, stream.cpp, scalar.cpp, var.cpp:85-117:
`addVariable` and `addNode` are always called on the same `meta`). -/
def Heap.exec (F : FloatOps) (h : Heap) (cmd : Cmd) : Except Fault (Heap × List Nat) :=
  match cmd with
  | .endInst bs =>
    if ∃ v ∈ Cmd.vars (.endInst bs), h.w.next ≤ v then .error .ub
    else match h.w.stack with
    | S :: K :: _ => do
      let (h, hds) ← h.bindAll K.id S.id bs
      let h ← h.transfer
      return (h, hds)
    | _ => .error .ub
  | cmd => do
    let (w, rs) ← h.w.exec F cmd
    return ({ h with
      w := w
      store := if h.w.next < w.next then
          fun k => if k = (w.node h.w.next).kern then h.w.next :: h.store k else h.store k
        else h.store }, rs)

/-- A history of calls, all of which satisfy `P`. -/
inductive HeapHist (F : FloatOps) (P : World → Cmd → Prop) : Heap → Heap → Prop
  | nil (h : Heap) : HeapHist F P h h
  | snoc {h h1 h2 : Heap} {rs : List Nat} (c : Cmd) : HeapHist F P h h1 → P h1.w c → h1.exec F c = .ok (h2, rs) → HeapHist F P h h2

/-- Everything deleted when the top kernel `g` is destroyed at the end of a history, its storage being enumerated as `vars` and its
graph as `nodes`. -/
def Heap.finally (h : Heap) (vars nodes : List Nat) : List Obj := h.freed ++ h.w.destroys vars nodes

end Verif.Dfcxx
