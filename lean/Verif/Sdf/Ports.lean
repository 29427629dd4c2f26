import Verif.Sdf.Props
import Verif.Flow.Shape
/-
C84: the ports of the generated module.

Source: /repo/src/model/dfcir/lib/dfcir/passes/DFCIRToFIRRTLPass.cpp:139-204 (`KernelOpConversionPattern`): the operations of the scheduled block that
have a name (DFCIROperations.td:38, 54, 70, 86) become ports in the order of the block, then comes the clock (lines 170-173, ModuleDefines.inc:39).
-/
namespace Verif.Sdf
open Verif.Dfcxx Verif.Flow Verif.Sched Verif.Hw

/-! ### Model -/

/-- `circt::firrtl::PortInfo`; no type: the clock. -/
structure Port where
  name : String
  ty : Option FTy
  input : Bool
  deriving DecidableEq, Repr

/-- A named operation as a port (DFCIRToFIRRTLPass.cpp:154-166; which operations are `NamedOpVal` and `InputOpInterface`: DFCIROperations.td:38-86). -/
def portOfOp (o : OpInfo) : Option Port :=
  match o.kind, o.attr with
  | .input, .name s | .scalarInput, .name s => some ⟨s, some (convertType (hwTy o.ty)), true⟩
  | .output, .name s | .scalarOutput, .name s => some ⟨s, some (convertType (hwTy o.ty)), false⟩
  | _, _ => none

/-- The clock (DFCIRToFIRRTLPass.cpp:169-173). -/
def clockPort : Port := ⟨"clk", none, true⟩

/-- The ports of the module made of a block (DFCIRToFIRRTLPass.cpp:149-173).  Inserted buffers are no operations of the original block and have no name. -/
def modulePorts (prog : List DStmt) (ls : List Line) : List Port :=
  (valsOf ls).filterMap (fun v => ((opsOf prog)[v]?).bind portOfOp) ++ [clockPort]

/-! ### Specification -/

/-- What a variable of the kernel asks for: an input or output of its name, as wide as its type, signed if its type is. -/
def portOfNode (v : NodeV) : Option Port :=
  let ty : FTy := match v.ty with
    | .fixed true i f => .sint (1 + i + f)
    | .fixed false i f => .uint (i + f)
    | .float e f => .uint (1 + e + f)
    | .rawBits b => .uint b
  match v.op with
  | .IN => some ⟨v.name, some ty, true⟩
  | .OUT => some ⟨v.name, some ty, false⟩
  | _ => none

/-- The port a cell of the circuit stands for. -/
def portOfCell : Cell → Option Port
  | .input s ty => some ⟨s, some ty, true⟩
  | .output s ty _ => some ⟨s, some ty, false⟩
  | _ => none

/-! ### Proofs -/

theorem valsOf_before {x : Line} {u : Nat} {p : Nat → Bool} (hu : p u = false) : ∀ ls, (valsOf (before x (.val u) ls)).filter p = (valsOf ls).filter p
  | [] => rfl
  | l :: ls => by
    unfold before
    split
    · rw [valsOf_cons_val, List.filter_cons_of_neg (by simp [hu])]
    · have ih := valsOf_before (x := x) hu ls
      cases l with
      | val v =>
        rw [valsOf_cons_val, valsOf_cons_val, List.filter_cons, List.filter_cons, ih]
      | con d => rw [valsOf_cons_con, valsOf_cons_con, ih]

theorem valsOf_lineBuffers : ∀ (bs : List (Sched.Chan × Int)) (k : Nat) (ls : List Line) (n : Nat), n ≤ k →
    (valsOf (lineBuffers k bs ls)).filter (fun v => decide (v < n)) = (valsOf ls).filter fun v => decide (v < n)
  | [], _, _, _, _ => rfl
  | (c, b) :: bs, k, ls, n, h => by
    rw [lineBuffers, valsOf_lineBuffers bs (k + 1) _ n (by omega), lineBuffer, valsOf_before (by simp; omega)]

theorem valsOf_filter_alive (X : Prog) : ∀ ls, valsOf (ls.filter (alive X)) = (valsOf ls).filter fun v => decide (X.defn v ≠ .erased)
  | [] => rfl
  | .val v :: ls => by
    rw [List.filter_cons, valsOf_cons_val, List.filter_cons, ← valsOf_filter_alive X ls]
    by_cases e : X.defn v = .erased
    · simp [alive, e]
    · simp [alive, e, valsOf_cons_val]
  | .con d :: ls => by
    rw [List.filter_cons, valsOf_cons_con, ← valsOf_filter_alive X ls]
    simp [alive, valsOf_cons_con]

theorem filterMap_filter_of {α β : Type} (f : α → Option β) (p : α → Bool) (l : List α) (h : ∀ a ∈ l, p a = false → f a = none) :
    (l.filter p).filterMap f = l.filterMap f := by
  induction l with
  | nil => rfl
  | cons a l ih =>
    have ih := ih fun b hb => h b (List.mem_cons_of_mem _ hb)
    cases e : p a with
    | true => rw [List.filter_cons_of_pos e, List.filterMap_cons, List.filterMap_cons, ih]
    | false => rw [List.filter_cons_of_neg (by simp [e]), List.filterMap_cons, h a List.mem_cons_self e, ih]

theorem convertType_hwTy (t : DFType) : convertType (hwTy t) = match t with
    | .fixed true i f => .sint (1 + i + f)
    | .fixed false i f => .uint (i + f)
    | .float e f => .uint (1 + e + f)
    | .rawBits b => .uint b := by
  cases t with
  | fixed s i f => cases s <;> rfl
  | float e f => rfl
  | rawBits b => rfl

theorem portOfOp_node (V : Nat → NodeV) (idx : Nat → Nat) {n : Nat} (hc : Complete V n) : portOfOp (opInfo V idx n) = portOfNode (V n) := by
  have hty := convTy_ty' (V n)
  unfold portOfNode
  cases ho : (V n).op
  case IN =>
    cases hk : (V n).kind <;> simp [portOfOp, opInfo, exactOp, ho, hk, binaryKind, unaryKind, convertType_hwTy, hty]
  case OUT =>
    cases hk : (V n).kind <;> simp [portOfOp, opInfo, exactOp, ho, hk, binaryKind, unaryKind, convertType_hwTy, hty]
  case CONST =>
    cases hk : (V n).kind <;> simp [portOfOp, opInfo, exactOp, ho, hk, binaryKind, unaryKind]
  case NONE => exact absurd ho hc.notNone
  case MUX => cases hs : (V n).srcs <;> simp [portOfOp, opInfo, exactOp, ho, binaryKind, unaryKind, hs]
  case OFFSET => cases hd : (V n).data <;> cases hs : (V n).srcs <;> simp [portOfOp, opInfo, exactOp, ho, binaryKind, unaryKind, hd, hs]
  case SHL => cases hd : (V n).data <;> cases hs : (V n).srcs <;> simp [portOfOp, opInfo, exactOp, ho, binaryKind, unaryKind, hd, hs]
  case SHR => cases hd : (V n).data <;> cases hs : (V n).srcs <;> simp [portOfOp, opInfo, exactOp, ho, binaryKind, unaryKind, hd, hs]
  case BITS => cases hd : (V n).data <;> cases hs : (V n).srcs <;> simp [portOfOp, opInfo, exactOp, ho, binaryKind, unaryKind, hd, hs]
  all_goals simp [portOfOp, opInfo, exactOp, ho, binaryKind, unaryKind]

/-- Scheduling keeps the ports, and their order, if it erases no input or output. -/
theorem modulePorts_schedLines {prog : List DStmt} {bs : List (Sched.Chan × Int)} {X : Prog}
    (h : ∀ v < (progOf prog).size, X.defn v = .erased → ((opsOf prog)[v]?).bind portOfOp = none) :
    modulePorts prog (schedLines prog bs X) = (opsOf prog).filterMap portOfOp ++ [clockPort] := by
  unfold modulePorts
  congr 1
  have big : ∀ v, ¬ v < (progOf prog).size → ((opsOf prog)[v]?).bind portOfOp = none := by
    intro v hv
    rw [List.getElem?_eq_none (by simpa [progOf] using hv)]; rfl
  rw [schedLines, valsOf_filter_alive,
    filterMap_filter_of _ _ _ fun v _ he => by
      by_cases hv : v < (progOf prog).size
      · exact h v hv (by simpa using he)
      · exact big v hv]
  rw [← filterMap_filter_of (fun v => ((opsOf prog)[v]?).bind portOfOp) (fun v => decide (v < (progOf prog).size)) (valsOf (lineBuffers _ bs _))
    fun v _ he => big v (by simpa using he), valsOf_lineBuffers _ _ _ _ (Nat.le_refl _),
    filterMap_filter_of _ _ _ fun v _ he => big v (by simpa using he), valsOf_linesFrom]
  generalize opsOf prog = l
  have key : ∀ (l pre : List OpInfo), (List.range' pre.length l.length).filterMap (fun v => ((pre ++ l)[v]?).bind portOfOp) = l.filterMap portOfOp := by
    intro l
    induction l with
    | nil => intro pre; rfl
    | cons o l ih =>
      intro pre
      have := ih (pre ++ [o])
      rw [List.length_append, List.append_assoc] at this
      rw [List.length_cons, List.range'_succ, List.filterMap_cons, List.filterMap_cons]
      have e : (pre ++ o :: l)[pre.length]? = some o := by simp
      rw [e]
      simp only [Option.bind_some]
      rw [show pre.length + 1 = pre.length + [o].length from rfl, show pre ++ o :: l = pre ++ ([o] ++ l) from rfl, this]
  exact key l []

theorem ops_ports {V : Nat → NodeV} {order : List Nat} (hc : ∀ n ∈ order, Complete V n) :
    (opsOf (block V order)).filterMap portOfOp = order.filterMap fun n => portOfNode (V n) := by
  rw [block, opsOf_flatMap]
  suffices h : ∀ (idx : Nat → Nat) (l : List Nat), (∀ n ∈ l, Complete V n) →
      (l.map (opInfo V idx)).filterMap portOfOp = l.filterMap fun n => portOfNode (V n) from h _ order hc
  intro idx l hl
  rw [List.filterMap_map]
  exact List.filterMap_congr fun n hn => portOfOp_node V idx (hl n hn)

/-- The definition of an operation after scheduling says whether it is a port. -/
theorem sched_port {V : Nat → NodeV} {order : List Nat} (hto : TopoOrder V order) (hc : ∀ n ∈ order, Complete V n) {X : Prog}
    (hi : TyInv (fun _ => ()) (progOf (block V order)) X) {v : Nat} (hv : v < (progOf (block V order)).size) :
    ∃ n ∈ order, (opsOf (block V order))[v]? = some (opInfo V order.idxOf n) ∧
      match (V n).op with
      | .IN => X.defn v = .stream ∨ X.defn v = .scalar
      | .OUT => ∃ s, X.defn v = .output s
      | .CONST => X.defn v = .const
      | .OFFSET => (∃ s k, X.defn v = .offset s k) ∨ X.defn v = .erased
      | _ => ∃ args, X.defn v = .node args := by
  have hv' := hv
  rw [progOf_size] at hv'
  obtain ⟨hn, he⟩ := value_is_node hto.nodup hv'
  refine ⟨order[v], hn, ?_, ?_⟩
  · have := ops_at V hn
    rw [he] at this
    exact this
  · have hd := hi.defs v hv
    have hp := progOf_defn V hn (hc _ hn)
    rw [he] at hp
    rw [hp] at hd
    generalize order[v] = n at hd
    unfold defOf at hd
    cases ho : (V n).op <;> rw [ho] at hd <;> simp only at hd ⊢
    case IN =>
      by_cases hk : (V n).kind = .stream
      · rw [if_pos hk] at hd; exact .inl hd
      · rw [if_neg hk] at hd; exact .inr hd
    case OUT =>
      cases hg : (getConnection (V n)) with
      | none => rw [hg] at hd; exact ⟨_, hd⟩
      | some s => rw [hg] at hd; obtain ⟨s', h1, -⟩ := hd; exact ⟨_, h1⟩
    case CONST => exact hd
    case OFFSET =>
      split at hd
      · rcases hd with ⟨s', h1, -⟩ | h1
        · exact .inl ⟨_, _, h1⟩
        · exact .inr h1
      · exact .inr hd
    case MUX =>
      split at hd
      · obtain ⟨a, h1, -⟩ := hd; exact ⟨a, h1⟩
      · obtain ⟨a, h1, -⟩ := hd; exact ⟨a, h1⟩
    all_goals (obtain ⟨a, h1, -⟩ := hd; exact ⟨a, h1⟩)

theorem portOfCell_cellOf {V : Nat → NodeV} {order : List Nat} (hto : TopoOrder V order) (hc : ∀ n ∈ order, Complete V n) {X : Prog}
    (hi : TyInv (fun _ => ()) (progOf (block V order)) X) (mods : List (Nat × Module)) {v : Nat} (hv : v < X.size) :
    portOfCell (cellOf (opsOf (block V order)) X mods v) = ((opsOf (block V order))[v]?).bind portOfOp := by
  by_cases hlt : v < (progOf (block V order)).size
  · obtain ⟨n, hn, h1, h2⟩ := sched_port hto hc hi hlt
    rw [h1, Option.bind_some, portOfOp_node V _ (hc n hn)]
    have hty := convTy_ty' (V n)
    cases ho : (V n).op <;> rw [ho] at h2 <;> simp only at h2
    case IN =>
      have hop : opInfo V order.idxOf n = ⟨if (V n).kind = .stream then .input else .scalarInput, (V n).ty, .name (V n).name, []⟩ := by
        simp [opInfo, exactOp, ho, binaryKind, unaryKind, hty]
      rcases h2 with h2 | h2
      all_goals simp only [cellOf, h2, h1, hop, portOfCell, portOfNode, ho, convertType_hwTy]
    case OUT =>
      have hop : opInfo V order.idxOf n = ⟨if (V n).kind = .stream then .output else .scalarOutput, (V n).ty, .name (V n).name, []⟩ := by
        simp [opInfo, exactOp, ho, binaryKind, unaryKind, hty]
      obtain ⟨s, h2⟩ := h2
      simp only [cellOf, h2, h1, hop, portOfCell, portOfNode, ho, convertType_hwTy]
    case CONST =>
      simp only [portOfNode, ho, cellOf, h2, h1]
      split <;> rfl
    case OFFSET =>
      rcases h2 with ⟨s, k, h2⟩ | h2 <;> simp only [portOfNode, ho, cellOf, h2] <;> rfl
    all_goals
      obtain ⟨args, h2⟩ := h2
      simp only [portOfNode, ho, cellOf, h2, h1]
      (repeat' split) <;> rfl
  · obtain ⟨s, k, h, -⟩ := hi.fresh v (by omega) hv
    rw [List.getElem?_eq_none (by simpa [progOf] using hlt)]
    simp only [cellOf, h]
    split <;> rfl

section
variable {F : FloatOps} {w : World} {g : KGraph} {file : Option Config.JsonDoc} {conf : Bool} {prog : List DStmt} {bs : List (Sched.Chan × Int)} {X : Prog} {att : Nat → Int}

/-- **C84.**  Whatever pass scheduled a finished kernel, with whatever configuration: the module has one port per input and output of the kernel, of that
name, direction, width and signedness, in the order in which they stand in the block before scheduling, and then the clock. -/
theorem ports_of_kernel (h : Hist F Proper World.init w) (hf : Finished w g)
    (ho : ∀ n ∈ g.nodes, ∀ k, (w.view n).data = .offset k → -(2 ^ 31 : Int) ≤ k ∧ k < 2 ^ 31)
    (hr : ∀ n ∈ g.nodes, ∀ s ∈ (w.view n).srcs, (w.view s).op ≠ .OUT) (hp : Pass w g file conf prog bs X att) :
    modulePorts prog (schedLines prog bs X) = modulePorts prog (linesFrom 0 prog) ∧
    ∃ order, order.Perm g.nodes ∧ buildBody w.view order = .ok prog ∧
      modulePorts prog (schedLines prog bs X) = (order.filterMap fun n => portOfNode (w.view n)) ++ [⟨"clk", none, true⟩] := by
  obtain ⟨order, h2, h3, h4, rfl, hbs, ha⟩ := hp.applied h hf ho hr
  have hP := block_wf h3 h4 (fun n hn => ho n (h2.mem_iff.mp hn))
  obtain ⟨hi, -⟩ := applySchedule_tyInv (base := fun _ => ()) hP (progOf_beyond _) (fun _ _ _ _ _ => rfl) hbs ha
  have e : modulePorts (block w.view order) (schedLines (block w.view order) bs X) =
      (opsOf (block w.view order)).filterMap portOfOp ++ [clockPort] := by
    refine modulePorts_schedLines fun v hv he => ?_
    obtain ⟨n, hn, h5, h6⟩ := sched_port h3 h4 hi hv
    rw [h5, Option.bind_some, portOfOp_node _ _ (h4 n hn)]
    unfold portOfNode
    cases hop : (w.view n).op <;> rw [hop] at h6 <;> simp only at h6 ⊢
    · rcases h6 with h6 | h6 <;> rw [h6] at he <;> cases he
    · obtain ⟨s, h6⟩ := h6; rw [h6] at he; cases he
  refine ⟨?_, order, h2, buildBody_exact w.view order h3 h4, by rw [e, ops_ports h4]; rfl⟩
  rw [e]
  have h0 := modulePorts_schedLines (prog := block w.view order) (bs := []) (X := ⟨0, fun _ => .const⟩) (by simp)
  rw [← h0]
  unfold schedLines lineBuffers
  rw [List.filter_eq_self.mpr]
  intro l _
  cases l <;> simp [alive]

/-- Any two modules made of one kernel have the same ports, perhaps in another order. -/
theorem ports_perm (h : Hist F Proper World.init w) (hf : Finished w g)
    (ho : ∀ n ∈ g.nodes, ∀ k, (w.view n).data = .offset k → -(2 ^ 31 : Int) ≤ k ∧ k < 2 ^ 31)
    (hr : ∀ n ∈ g.nodes, ∀ s ∈ (w.view n).srcs, (w.view s).op ≠ .OUT) (hp : Pass w g file conf prog bs X att)
    {file' : Option Config.JsonDoc} {conf' : Bool} {prog' : List DStmt} {bs' : List (Sched.Chan × Int)} {X' : Prog} {att' : Nat → Int}
    (hp' : Pass w g file' conf' prog' bs' X' att') :
    (modulePorts prog (schedLines prog bs X)).Perm (modulePorts prog' (schedLines prog' bs' X')) := by
  obtain ⟨-, o1, p1, -, e1⟩ := ports_of_kernel h hf ho hr hp
  obtain ⟨-, o2, p2, -, e2⟩ := ports_of_kernel h hf ho hr hp'
  rw [e1, e2]
  exact ((p1.trans p2.symm).filterMap _).append_right _

/-- The ports are those of the circuit whose meaning C58, C68 and C81 speak of. -/
theorem ports_of_circuit (h : Hist F Proper World.init w) (hf : Finished w g)
    (ho : ∀ n ∈ g.nodes, ∀ k, (w.view n).data = .offset k → -(2 ^ 31 : Int) ≤ k ∧ k < 2 ^ 31)
    (hr : ∀ n ∈ g.nodes, ∀ s ∈ (w.view n).srcs, (w.view s).op ≠ .OUT) (hp : Pass w g file conf prog bs X att) :
    modulePorts prog (schedLines prog bs X) =
      (fullOrder X (valsOf (schedLines prog bs X))).filterMap
        (fun v => portOfCell (circuitOf (opsOf prog) X (posLat att) (fullOrder X (valsOf (schedLines prog bs X))) v)) ++ [⟨"clk", none, true⟩] := by
  obtain ⟨order, h2, h3, h4, rfl, hbs, ha⟩ := hp.applied h hf ho hr
  have hof : OffsetsFit w.view order := fun n hn => ho n (h2.mem_iff.mp hn)
  have hP := block_wf h3 h4 hof
  obtain ⟨hi, -⟩ := applySchedule_tyInv (base := fun _ => ()) hP (progOf_beyond _) (fun _ _ _ _ _ => rfl) hbs ha
  have hl := schedLines_inv h3 h4 hof hbs ha
  unfold modulePorts
  refine congrArg (· ++ [clockPort]) ?_
  suffices gen : ∀ blk, (valsOf (schedLines (block w.view order) bs X)).filterMap (fun v => ((opsOf (block w.view order))[v]?).bind portOfOp) =
      (fullOrder X (valsOf (schedLines (block w.view order) bs X))).filterMap
        (fun v => portOfCell (circuitOf (opsOf (block w.view order)) X (posLat att) blk v)) from gen _
  intro blk
  rw [fullOrder, List.filterMap_append]
  have e2 : ((List.range X.size).filter fun v => decide (X.defn v = .erased)).filterMap
      (fun v => portOfCell (circuitOf (opsOf (block w.view order)) X (posLat att) blk v)) = [] := by
    rw [List.filterMap_eq_nil_iff]
    intro v hv
    have hd : X.defn v = .erased := by simpa using (List.mem_filter.mp hv).2
    simp only [circuitOf, cellOf, hd, portOfCell]
  rw [e2, List.append_nil]
  exact List.filterMap_congr fun v hv => (portOfCell_cellOf h3 h4 hi _ ((hl.vals v).mp hv).1).symm

/-- The names of the ports are distinct just if those of the kernel's inputs and outputs are, and none is that of the clock. -/
theorem ports_distinct (h : Hist F Proper World.init w) (hf : Finished w g)
    (ho : ∀ n ∈ g.nodes, ∀ k, (w.view n).data = .offset k → -(2 ^ 31 : Int) ≤ k ∧ k < 2 ^ 31)
    (hr : ∀ n ∈ g.nodes, ∀ s ∈ (w.view n).srcs, (w.view s).op ≠ .OUT) (hp : Pass w g file conf prog bs X att) :
    ((modulePorts prog (schedLines prog bs X)).map Port.name).Nodup ↔
      ((g.nodes.filter fun n => (w.view n).op = .IN ∨ (w.view n).op = .OUT).map fun n => (w.view n).name).Nodup ∧
      ∀ n ∈ g.nodes, (w.view n).op = .IN ∨ (w.view n).op = .OUT → (w.view n).name ≠ "clk" := by
  obtain ⟨-, order, p, -, e⟩ := ports_of_kernel h hf ho hr hp
  have key : ∀ l : List Nat, (l.filterMap fun n => portOfNode (w.view n)).map Port.name =
      (l.filter fun n => (w.view n).op = .IN ∨ (w.view n).op = .OUT).map fun n => (w.view n).name := by
    intro l
    induction l with
    | nil => rfl
    | cons n l ih =>
      rw [List.filterMap_cons, List.filter_cons]
      cases hop : (w.view n).op <;> simp [portOfNode, hop] <;> simpa [portOfNode] using ih
  rw [e, List.map_append, key, List.map_cons, List.map_nil, List.nodup_append]
  have p' := (p.filter fun n => decide ((w.view n).op = .IN ∨ (w.view n).op = .OUT)).map fun n => (w.view n).name
  rw [p'.nodup_iff]
  refine and_congr_right fun _ => ⟨fun hh => ?_, fun hh => ⟨by simp, ?_⟩⟩
  · intro n hn hop
    exact hh.2 _ (p'.mem_iff.mpr (List.mem_map_of_mem (List.mem_filter.mpr ⟨hn, by simpa using hop⟩))) _ (List.mem_singleton.mpr rfl)
  · intro a ha b hb
    rw [List.mem_singleton] at hb
    subst hb
    obtain ⟨n, hn, rfl⟩ := List.mem_map.mp (p'.mem_iff.mp ha)
    obtain ⟨h1, h2⟩ := List.mem_filter.mp hn
    exact hh n h1 (by simpa using h2)

end

end Verif.Sdf
