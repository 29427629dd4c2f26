import Verif.Dfcxx.ChanInv
/-
The invariant of the graph-building API and its preservation.
-/
namespace Verif.Dfcxx

structure StackInv (w : World) : Prop where
  top : ∃ g ∈ w.stack, g.id = 0
  ids : (w.stack.map KGraph.id).Pairwise (· > ·)
  idLt : ∀ g ∈ w.stack, g.id < w.nextK
  nodes : ∀ g ∈ w.stack, g.nodes.Nodup
  own : ∀ g ∈ w.stack, ∀ n ∈ g.nodes, n < w.next ∧ (w.node n).kern = g.id
  starts : ∀ g ∈ w.stack, g.starts.Nodup ∧ ∀ n ∈ g.starts, n ∈ g.nodes ∧ ((w.node n).op = .IN ∨ (w.node n).op = .CONST)
  names : ∀ g ∈ w.stack, ∀ p ∈ g.names, p.2 ∈ g.nodes ∧ ((w.node p.2).op = .IN ∨ (w.node p.2).op = .OUT) ∧ (w.node p.2).name = p.1
  const : ∀ n, n < w.next → ((w.node n).op = .CONST ↔ (w.node n).kind.isConst = true)
  constTop : ∀ g ∈ w.stack, ∀ n ∈ g.nodes, (w.node n).op = .CONST → n ∈ g.starts ∧ g.id = 0

structure Inv (w : World) : Prop where
  st : StackInv w
  ch : ChanInv w.Live w.node w.chan w.nextC

theorem StackInv.idsNodup {w : World} (h : StackInv w) : (w.stack.map KGraph.id).Nodup :=
  h.ids.imp fun hab => Nat.ne_of_gt hab

theorem kernel_some {w : World} {k : Nat} {g : KGraph} (h : w.kernel k = some g) : g ∈ w.stack ∧ g.id = k := by
  unfold World.kernel at h
  exact ⟨List.mem_of_find?_eq_some h, by simpa using List.find?_some h⟩

theorem eq_of_id {w : World} (h : StackInv w) {g g' : KGraph} (hg : g ∈ w.stack) (hg' : g' ∈ w.stack) (e : g.id = g'.id) :
    g = g' := List.inj_on_of_nodup_map h.idsNodup hg hg' e

theorem kernel_eq {w : World} (h : StackInv w) {g : KGraph} (hg : g ∈ w.stack) : w.kernel g.id = some g := by
  have : ∃ x, w.kernel g.id = some x := by
    unfold World.kernel
    rw [← Option.isSome_iff_exists, List.find?_isSome]
    exact ⟨g, hg, by simp⟩
  obtain ⟨x, hx⟩ := this
  have hk := kernel_some hx
  rw [hx, eq_of_id h hk.1 hg hk.2]

theorem one_kernel {w : World} (h : StackInv w) {g g' : KGraph} (hg : g ∈ w.stack) (hg' : g' ∈ w.stack) {n : Nat}
    (hn : n ∈ g.nodes) (hn' : n ∈ g'.nodes) : g = g' :=
  eq_of_id h hg hg' ((h.own g hg n hn).2.symm.trans (h.own g' hg' n hn').2)

theorem live_lt {w : World} (h : StackInv w) {n : Nat} (hl : w.Live n) : n < w.next := by
  obtain ⟨g, hg, hn⟩ := hl; exact (h.own g hg n hn).1

/-- The invariant gives the specification. -/
theorem Inv.consistent {w : World} (h : Inv w) : Consistent w where
  outs n l c hc := (h.ch.out n l c hc).2
  ins n l c hc := (h.ch.inn n l c hc).2
  outsOnce := h.ch.outNd
  insOnce := h.ch.inNd
  nodesOnce := h.st.nodes
  oneKernel g hg g' hg' n hn hn' := one_kernel h.st hg hg' hn hn'
  starts := h.st.starts
  consts := h.st.constTop

theorem inv_init : Inv World.init := by
  constructor
  · constructor <;> simp [World.init]
  · constructor <;> simp [World.init, World.Live]

/-! ### addNode -/

theorem addNode_node (w : World) (k : Nat) (r : NodeRec) (m : Nat) (h : m ≠ w.next) : (w.addNode k r).node m = w.node m := by
  unfold World.addNode; dsimp only; rw [if_neg h]

theorem addNode_new (w : World) (k : Nat) (r : NodeRec) :
    (w.addNode k r).node w.next = { r with kern := k, ins := [], outs := [] } := by
  unfold World.addNode; dsimp only; rw [if_pos rfl]

theorem mem_addNode (w : World) (k : Nat) (r : NodeRec) (g' : KGraph) (h : g' ∈ (w.addNode k r).stack) :
    ∃ g ∈ w.stack, g'.id = g.id ∧
      ((g.id ≠ k ∧ g' = g) ∨ (g.id = k ∧ g'.nodes = w.next :: g.nodes ∧
        g'.starts = (if r.op = .IN ∨ r.op = .CONST then w.next :: g.starts else g.starts) ∧
        g'.names = if r.name = "" then g.names else (r.name, w.next) :: g.names.filter fun p => p.1 ≠ r.name)) := by
  unfold World.addNode at h
  simp only [List.mem_map] at h
  obtain ⟨g, hg, rfl⟩ := h
  refine ⟨g, hg, ?_⟩
  by_cases hk : g.id = k
  · rw [if_pos hk]; exact ⟨rfl, Or.inr ⟨hk, rfl, rfl, rfl⟩⟩
  · rw [if_neg hk]; exact ⟨rfl, Or.inl ⟨hk, rfl⟩⟩

theorem live_addNode (w : World) (k : Nat) (r : NodeRec) (hk : ∃ g ∈ w.stack, g.id = k) (n : Nat) :
    (w.addNode k r).Live n ↔ n = w.next ∨ w.Live n := by
  constructor
  · rintro ⟨g', hg', hn⟩
    obtain ⟨g, hg, -, (⟨-, rfl⟩ | ⟨-, e, -⟩)⟩ := mem_addNode w k r g' hg'
    · exact Or.inr ⟨g', hg, hn⟩
    · rw [e] at hn
      rcases List.mem_cons.mp hn with hn | hn
      · exact Or.inl hn
      · exact Or.inr ⟨g, hg, hn⟩
  · intro h
    rcases h with rfl | ⟨g, hg, hn⟩
    · obtain ⟨g, hg, rfl⟩ := hk
      refine ⟨_, List.mem_map.mpr ⟨g, hg, rfl⟩, ?_⟩
      rw [if_pos rfl]; simp
    · refine ⟨_, List.mem_map.mpr ⟨g, hg, rfl⟩, ?_⟩
      split
      · simp [hn]
      · exact hn

/-- Adding a node to the graph of a kernel under construction.  A constant goes to the top kernel; only inputs and outputs have
names. -/
theorem inv_addNode {w : World} (h : Inv w) (k : Nat) (r : NodeRec) (hk : ∃ g ∈ w.stack, g.id = k)
    (hc : r.op = .CONST ↔ r.kind.isConst = true) (hct : r.op = .CONST → k = 0)
    (hname : r.name ≠ "" → r.op = .IN ∨ r.op = .OUT) : Inv (w.addNode k r) := by
  have hnl : ¬ w.Live w.next := fun l => Nat.lt_irrefl _ (live_lt h.st l)
  have nodeOld : ∀ g ∈ w.stack, ∀ n ∈ g.nodes, (w.addNode k r).node n = w.node n := by
    intro g hg n hn
    apply addNode_node
    have := (h.st.own g hg n hn).1
    omega
  constructor
  · constructor
    · obtain ⟨g, hg, h0⟩ := h.st.top
      refine ⟨_, List.mem_map.mpr ⟨g, hg, rfl⟩, ?_⟩
      split <;> exact h0
    · have : (w.addNode k r).stack.map KGraph.id = w.stack.map KGraph.id := by
        unfold World.addNode
        simp only [List.map_map]
        apply List.map_congr_left
        intro g _
        simp only [Function.comp]
        split <;> rfl
      rw [this]; exact h.st.ids
    · intro g' hg'
      obtain ⟨g, hg, e, -⟩ := mem_addNode w k r g' hg'
      rw [e]; exact h.st.idLt g hg
    · intro g' hg'
      obtain ⟨g, hg, -, (⟨-, rfl⟩ | ⟨-, e, -⟩)⟩ := mem_addNode w k r g' hg'
      · exact h.st.nodes g' hg
      · rw [e, List.nodup_cons]
        exact ⟨fun hm => hnl ⟨g, hg, hm⟩, h.st.nodes g hg⟩
    · intro g' hg' n hn
      have hnext : (w.addNode k r).next = w.next + 1 := rfl
      obtain ⟨g, hg, eid, (⟨-, rfl⟩ | ⟨ek, e, -⟩)⟩ := mem_addNode w k r g' hg'
      · rw [nodeOld g' hg n hn]
        have := h.st.own g' hg n hn
        exact ⟨by omega, this.2⟩
      · rw [e] at hn
        rcases List.mem_cons.mp hn with rfl | hn
        · rw [addNode_new]; exact ⟨by omega, by rw [eid]; exact ek.symm⟩
        · rw [nodeOld g hg n hn, eid]
          have := h.st.own g hg n hn
          exact ⟨by omega, this.2⟩
    · intro g' hg'
      obtain ⟨g, hg, -, (⟨-, rfl⟩ | ⟨-, e, e2, -⟩)⟩ := mem_addNode w k r g' hg'
      · refine ⟨(h.st.starts g' hg).1, fun n hn => ?_⟩
        have := (h.st.starts g' hg).2 n hn
        rw [nodeOld g' hg n this.1]; exact this
      · obtain ⟨hnd, hs⟩ := h.st.starts g hg
        rw [e, e2]
        split
        · rename_i hop
          constructor
          · rw [List.nodup_cons]
            exact ⟨fun hm => hnl ⟨g, hg, (hs _ hm).1⟩, hnd⟩
          · intro n hn
            rcases List.mem_cons.mp hn with rfl | hn
            · rw [addNode_new]; exact ⟨by simp, hop⟩
            · rw [nodeOld g hg n (hs n hn).1]; exact ⟨by simp [(hs n hn).1], (hs n hn).2⟩
        · refine ⟨hnd, fun n hn => ?_⟩
          rw [nodeOld g hg n (hs n hn).1]; exact ⟨by simp [(hs n hn).1], (hs n hn).2⟩
    · intro g' hg' p hp
      obtain ⟨g, hg, -, (⟨-, rfl⟩ | ⟨-, e, -, e3⟩)⟩ := mem_addNode w k r g' hg'
      · have := h.st.names g' hg p hp
        rw [nodeOld g' hg _ this.1]; exact this
      · rw [e3] at hp
        rw [e]
        have old : p ∈ g.names → p.2 ∈ w.next :: g.nodes ∧ (((w.addNode k r).node p.2).op = .IN ∨ ((w.addNode k r).node p.2).op = .OUT) ∧
            ((w.addNode k r).node p.2).name = p.1 := by
          intro hp
          have := h.st.names g hg p hp
          rw [nodeOld g hg _ this.1]; exact ⟨by simp [this.1], this.2⟩
        split at hp
        · exact old hp
        · rename_i hne
          rcases List.mem_cons.mp hp with rfl | hp
          · rw [addNode_new]; exact ⟨by simp, hname hne, rfl⟩
          · exact old (List.mem_of_mem_filter hp)
    · intro n hn
      by_cases he : n = w.next
      · subst he; rw [addNode_new]; exact hc
      · rw [addNode_node _ _ _ _ he]
        have hnext : (w.addNode k r).next = w.next + 1 := rfl
        exact h.st.const n (by omega)
    · intro g' hg' n hn hop
      obtain ⟨g, hg, eid, (⟨-, rfl⟩ | ⟨ek, e, e2, -⟩)⟩ := mem_addNode w k r g' hg'
      · rw [nodeOld g' hg n hn] at hop
        exact h.st.constTop g' hg n hn hop
      · rw [e] at hn
        rcases List.mem_cons.mp hn with rfl | hn
        · rw [addNode_new] at hop
          rw [e2, if_pos (Or.inr hop), eid, ek]
          exact ⟨by simp, hct hop⟩
        · rw [nodeOld g hg n hn] at hop
          have := h.st.constTop g hg n hn hop
          rw [e2, eid]
          refine ⟨?_, this.2⟩
          split
          · simp [this.1]
          · exact this.1
  · refine (h.ch.addNode (node' := (w.addNode k r).node) (x := w.next) hnl ?_ ?_).congr (fun n => ?_) ?_
    · rw [addNode_new]; exact ⟨rfl, rfl⟩
    · intro n hn; rw [addNode_node _ _ _ _ hn]; exact ⟨rfl, rfl⟩
    · exact live_addNode w k r hk n
    · intro n _; exact ⟨rfl, rfl⟩

/-! ### Channels -/

theorem link_fields (w : World) (s t i : Nat) (b : Bool) (m : Nat) :
    ((w.link s t i b).node m).op = (w.node m).op ∧ ((w.link s t i b).node m).kind = (w.node m).kind ∧
    ((w.link s t i b).node m).kern = (w.node m).kern ∧ ((w.link s t i b).node m).name = (w.node m).name ∧
    ((w.link s t i b).node m).ty = (w.node m).ty ∧ ((w.link s t i b).node m).data = (w.node m).data := by
  unfold World.link
  dsimp only
  split <;> split <;> exact ⟨rfl, rfl, rfl, rfl, rfl, rfl⟩

/-- If only channel lists change, the kernels stay as they are. -/
theorem StackInv.congr {w w' : World} (h : StackInv w) (hs : w'.stack = w.stack) (hn : w'.next = w.next) (hk : w'.nextK = w.nextK)
    (hf : ∀ m, (w'.node m).op = (w.node m).op ∧ (w'.node m).kind = (w.node m).kind ∧ (w'.node m).kern = (w.node m).kern ∧
      (w'.node m).name = (w.node m).name) : StackInv w' := by
  constructor
  · rw [hs]; exact h.top
  · rw [hs]; exact h.ids
  · rw [hs, hk]; exact h.idLt
  · rw [hs]; exact h.nodes
  · rw [hs, hn]; intro g hg n hm; rw [(hf n).2.2.1]; exact h.own g hg n hm
  · rw [hs]; intro g hg; refine ⟨(h.starts g hg).1, fun n hm => ?_⟩; rw [(hf n).1]; exact (h.starts g hg).2 n hm
  · rw [hs]; intro g hg p hp; rw [(hf _).1, (hf _).2.2.2]; exact h.names g hg p hp
  · rw [hn]; intro n hm; rw [(hf n).1, (hf n).2.1]; exact h.const n hm
  · rw [hs]; intro g hg n hm; rw [(hf n).1]; exact h.constTop g hg n hm

theorem inv_link {w : World} (h : Inv w) (s t i : Nat) (b : Bool) (hs : w.Live s) (ht : w.Live t) : Inv (w.link s t i b) := by
  constructor
  · refine StackInv.congr (w' := w.link s t i b) h.st rfl rfl rfl ?_
    intro m
    obtain ⟨a, b, c, d, -⟩ := link_fields w s t i b m
    exact ⟨a, b, c, d⟩
  · exact h.ch.link w s t i b hs ht

theorem addChannel_ok {w w' : World} {k s t i : Nat} {b : Bool} (h : w.addChannel k s t i b = .ok w') :
    w' = w.link s t i b ∧ ∃ g gs, w.kernel k = some g ∧ w.kernel (if (w.node s).kind.isConst then 0 else k) = some gs ∧
      s ∈ gs.nodes ∧ t ∈ g.nodes := by
  unfold World.addChannel at h
  split at h
  · rename_i gs gt h1 h2
    split at h
    · rename_i hm
      injection h with h
      exact ⟨h.symm, gt, gs, h2, h1, hm.1, hm.2⟩
    · cases h
  · cases h

theorem addChannel_live {w w' : World} {k s t i : Nat} {b : Bool} (h : w.addChannel k s t i b = .ok w') :
    w' = w.link s t i b ∧ w.Live s ∧ w.Live t := by
  obtain ⟨e, g, gs, h1, h2, hs, ht⟩ := addChannel_ok h
  exact ⟨e, ⟨gs, (kernel_some h2).1, hs⟩, ⟨g, (kernel_some h1).1, ht⟩⟩

theorem inv_addChannel {w w' : World} {k s t i : Nat} {b : Bool} (hi : Inv w) (h : w.addChannel k s t i b = .ok w') : Inv w' := by
  obtain ⟨rfl, hs, ht⟩ := addChannel_live h
  exact inv_link hi s t i b hs ht

theorem inv_addOperands (k t : Nat) : ∀ (l : List Nat) (i : Nat) (w w' : World), Inv w → w.addOperands k t i l = .ok w' → Inv w'
  | [], _, w, w', hi, h => by
    unfold World.addOperands at h; injection h with h; exact h ▸ hi
  | a :: rest, i, w, w', hi, h => by
    unfold World.addOperands at h
    cases h1 : w.addChannel k a t i false with
    | error e => rw [h1] at h; cases h
    | ok w1 =>
      rw [h1] at h
      exact inv_addOperands k t rest (i + 1) w1 w' (inv_addChannel hi h1) h

/-- What a successful operator call did. -/
theorem newOp_ok {w w' : World} {k n : Nat} {op : OpType} {data : NodeData} {ty : DFType} {l : List Nat}
    (h : w.newOp k op data ty l = .ok (w', n)) : n = w.next ∧ (∃ g ∈ w.stack, g.id = k) ∧
      (w.addNode k ⟨op, data, ty, .stream, "", k, [], []⟩).addOperands k w.next 0 l = .ok w' := by
  unfold World.newOp at h
  split at h
  · cases h
  · rename_i g hg
    cases h1 : (w.addNode k ⟨op, data, ty, .stream, "", k, [], []⟩).addOperands k w.next 0 l with
    | error e => simp [h1, bind, Except.bind] at h
    | ok w1 =>
      simp [h1, bind, Except.bind, pure, Except.pure] at h
      exact ⟨h.2.symm, ⟨g, (kernel_some hg).1, (kernel_some hg).2⟩, by rw [h.1]⟩

theorem inv_newOp {w w' : World} {k n : Nat} {op : OpType} {data : NodeData} {ty : DFType} {l : List Nat} (hi : Inv w)
    (hop : op ≠ .CONST) (h : w.newOp k op data ty l = .ok (w', n)) : Inv w' := by
  obtain ⟨-, hk, h⟩ := newOp_ok h
  refine inv_addOperands _ _ _ _ _ _ (inv_addNode hi k _ hk ?_ ?_ ?_) h
  · simp [hop, VarKind.isConst]
  · intro e; exact absurd e hop
  · intro e; exact absurd rfl e

theorem createOrUseConst_ok {w w' : World} {ty : DFType} {v : Word} {n : Nat} (h : w.createOrUseConst ty v = .ok (w', n)) :
    (∃ g ∈ w.stack, g.id = 0) ∧ ∃ g, w.kernel 0 = some g ∧
      ((w' = w ∧ n ∈ g.starts ∧ w.isConstNode ty v n = true) ∨
       ((∀ m ∈ g.starts, w.isConstNode ty v m = false) ∧ n = w.next ∧
        w' = w.addNode 0 ⟨.CONST, .none, ty, .const v, "", 0, [], []⟩)) := by
  unfold World.createOrUseConst at h
  split at h
  · cases h
  · rename_i g hg
    refine ⟨⟨g, kernel_some hg⟩, g, hg, ?_⟩
    split at h
    · rename_i m hm
      injection h with h
      injection h with h1 h2
      subst h2
      exact Or.inl ⟨h1.symm, List.mem_of_find?_eq_some hm, List.find?_some hm⟩
    · rename_i hm
      injection h with h
      injection h with h1 h2
      refine Or.inr ⟨?_, h2.symm, h1.symm⟩
      intro m hmem
      have := List.find?_eq_none.mp hm m hmem
      simpa using this

theorem inv_createOrUseConst {w w' : World} {ty : DFType} {v : Word} {n : Nat} (hi : Inv w)
    (h : w.createOrUseConst ty v = .ok (w', n)) : Inv w' := by
  obtain ⟨hk, g, -, (⟨rfl, -⟩ | ⟨-, -, rfl⟩)⟩ := createOrUseConst_ok h
  · exact hi
  · exact inv_addNode hi 0 _ hk (by simp [VarKind.isConst]) (fun _ => rfl) (fun e => absurd rfl e)

end Verif.Dfcxx
