import Verif.Kernels.Base
/-
Rules for the calls that build expressions.
-/
namespace Verif.Kernels
open Verif.Dfcxx Verif.Flow

section
variable {F : FloatOps} {Z : String → Prop} {N : List Nat} {w : World}

theorem Good.inv (hg : Good F Z N w) : Inv w := (wellUsed_hist (hg.hist.mono fun _ _ h => h.1)).1
theorem Good.ninv (hg : Good F Z N w) : NInv w := (wellUsed_hist (hg.hist.mono fun _ _ h => h.1)).2.2

/-- The equation of a node depends on its view only. -/
theorem nodeEq_of_view {α : Type} {I : Interp α} {V V' : Nat → NodeV} {ρ : Nat → α} {n : Nat} (h : V' n = V n) (he : NodeEq I V' ρ n) :
    NodeEq I V ρ n := by
  unfold NodeEq at he ⊢
  rw [h] at he
  exact he

/-- May be an operand of a new node. -/
structure Opd (w : World) (a : Nat) : Prop where
  live : w.Live a
  use : (w.node a).kern = w.cur ∨ (w.node a).op = .CONST
  notOut : (w.node a).op ≠ .OUT
  notNone : (w.node a).op ≠ .NONE

theorem Val.opd {k : Nat} {n : Nat} {e : (Nat → Pat) → BitVec k} (h : Val w n e) : Opd w n := ⟨h.live, h.use, h.notOut, h.notNone⟩

theorem Good.opd_ok (hg : Good F Z N w) {a : Nat} (h : Opd w a) : NodeOK Z w.view a := by
  refine hg.ok a h.live fun hm => ?_
  rcases (hg.pend a hm).2.1 with e | ⟨e, -⟩
  · exact h.notNone e
  · exact h.notOut e

theorem addOperands_succeeds (k t : Nat) {gt : KGraph} : ∀ (l : List Nat) (i : Nat) (w : World), w.kernel k = some gt → t ∈ gt.nodes →
    (∀ a ∈ l, ∃ gs, w.kernel (if (w.node a).kind.isConst then 0 else k) = some gs ∧ a ∈ gs.nodes) →
    ∃ w', w.addOperands k t i l = .ok w'
  | [], _, w, _, _, _ => ⟨w, rfl⟩
  | a :: l, i, w, hk, ht, h => by
    obtain ⟨gs, h1, h2⟩ := h a (by simp)
    have e : w.addChannel k a t i false = .ok (w.link a t i false) := by
      unfold World.addChannel
      rw [h1, hk]
      simp only
      rw [if_pos ⟨h2, ht⟩]
    obtain ⟨w', e'⟩ := addOperands_succeeds k t l (i + 1) (w.link a t i false) hk ht (by
      intro a' ha'
      obtain ⟨gs', g1, g2⟩ := h a' (by simp [ha'])
      refine ⟨gs', ?_, g2⟩
      rw [show ((w.link a t i false).node a').kind = (w.node a').kind from (link_fields w a t i false a').2.1]
      exact g1)
    refine ⟨w', ?_⟩
    unfold World.addOperands
    rw [e]
    exact e'

theorem newOp_succeeds (hi : Inv w) {k : Nat} (hk : ∃ g ∈ w.stack, g.id = k) {op : OpType} {data : NodeData} {ty : DFType} {l : List Nat}
    (hl : ∀ a ∈ l, w.Live a ∧ ((w.node a).kern = k ∨ (w.node a).op = .CONST)) (hop : op ≠ .CONST) :
    ∃ w', w.newOp k op data ty l = .ok (w', w.next) := by
  obtain ⟨g, hg, rfl⟩ := hk
  have hi1 : Inv (w.addNode g.id ⟨op, data, ty, .stream, "", g.id, [], []⟩) := by
    refine inv_addNode hi g.id _ ⟨g, hg, rfl⟩ ?_ ?_ ?_
    · simp [hop, VarKind.isConst]
    · intro e; exact absurd e hop
    · intro e; exact absurd rfl e
  have hold : ∀ a, w.Live a → (w.addNode g.id ⟨op, data, ty, .stream, "", g.id, [], []⟩).Live a :=
    fun a ha => (live_addNode _ _ _ ⟨g, hg, rfl⟩ a).mpr (.inr ha)
  have hne : ∀ a, w.Live a → (w.addNode g.id ⟨op, data, ty, .stream, "", g.id, [], []⟩).node a = w.node a :=
    fun a ha => addNode_node _ _ _ _ (Nat.ne_of_lt (live_lt hi.st ha))
  obtain ⟨gt, hgt, hgn⟩ := (live_addNode w g.id ⟨op, data, ty, .stream, "", g.id, [], []⟩ ⟨g, hg, rfl⟩ w.next).mpr (.inl rfl)
  have hgid : gt.id = g.id := by
    have := (hi1.st.own gt hgt _ hgn).2
    rw [addNode_new] at this
    exact this.symm
  have hkt := kernel_eq hi1.st hgt
  rw [hgid] at hkt
  obtain ⟨w', e⟩ := addOperands_succeeds g.id w.next l 0 _ hkt hgn (by
    intro a ha
    obtain ⟨la, hu⟩ := hl a ha
    obtain ⟨ga, hga, hma⟩ := hold a la
    have hka := kernel_eq hi1.st hga
    refine ⟨ga, ?_, hma⟩
    rw [hne a la]
    by_cases hc : (w.node a).op = .CONST
    · rw [if_pos ((hi.st.const a (live_lt hi.st la)).mp hc)]
      have := (hi1.st.constTop ga hga a hma (by rw [hne a la]; exact hc)).2
      rw [this] at hka; exact hka
    · rw [if_neg fun h => hc ((hi.st.const a (live_lt hi.st la)).mpr h)]
      have := (hi1.st.own ga hga a hma).2
      rw [hne a la, hu.resolve_right hc] at this
      rw [← this] at hka; exact hka)
  refine ⟨w', ?_⟩
  unfold World.newOp
  rw [kernel_eq hi.st hg]
  simp only
  rw [e]
  rfl

/-- The call is made with known variables. -/
theorem exec_guard (hi : Inv w) {c : Cmd} (hl : ∀ a ∈ c.vars, w.Live a) : ¬ ∃ v ∈ c.vars, w.next ≤ v := by
  rintro ⟨v, hv, hle⟩
  exact absurd (live_lt hi.st (hl v hv)) (by omega)

theorem shape_addNode (k : Nat) (r : NodeRec) (h : r.name = "") : shape (w.addNode k r) = shape w := by
  unfold shape World.addNode
  simp only [List.map_map]
  refine List.map_congr_left fun g _ => ?_
  simp only [Function.comp_apply]
  split
  · rfl
  · rfl

/-- Adding a node that is neither input nor output keeps ports in order. -/
theorem ported_addNode {k : Nat} {r : NodeRec} (hr : r.op ≠ .IN ∧ r.op ≠ .OUT) (hname : r.name = "") {w' : World}
    (hs : w'.stack = (w.addNode k r).stack) (hf : ∀ m, w.Live m → FieldsEq (w.node m) (w'.node m)) (hn : (w'.node w.next).op = r.op)
    (hp : ∀ g ∈ w.stack, ∀ n ∈ g.nodes, (w.node n).op = .IN ∨ (w.node n).op = .OUT → g.names.lookup (w.node n).name = some n) :
    ∀ g ∈ w'.stack, ∀ n ∈ g.nodes, (w'.node n).op = .IN ∨ (w'.node n).op = .OUT → g.names.lookup (w'.node n).name = some n := by
  intro g' hg' n hng ho
  rw [hs] at hg'
  obtain ⟨g, hg, -, hcase⟩ := mem_addNode w k r g' hg'
  have old : n ∈ g.nodes → g.names.lookup (w'.node n).name = some n := by
    intro hm
    obtain ⟨a, -, -, -, b, -⟩ := hf n ⟨g, hg, hm⟩
    rw [b]
    exact hp g hg n hm (by rw [a] at ho; exact ho)
  rcases hcase with ⟨-, rfl⟩ | ⟨-, hnodes, -, hnames⟩
  · exact old hng
  · rw [hnames, if_pos hname]
    rw [hnodes] at hng
    rcases List.mem_cons.mp hng with rfl | hm
    · rw [hn] at ho
      rcases ho with e | e
      · exact absurd e hr.1
      · exact absurd e hr.2
    · exact old hm

/-- What a state becomes when a node is added and nothing else changes. -/
theorem Good.extend (hg : Good F Z N w) {w' : World} {c : Cmd} {rs : List Nat} (hx : w.exec F c = .ok (w', rs)) (hp : Proper w c)
    (hlive : ∀ m, w'.Live m ↔ m = w.next ∨ w.Live m) (hext : Extends w w') (hf : ∀ m, w.Live m → FieldsEq (w.node m) (w'.node m))
    (houts : ∀ m ∈ N, (w'.node m).outs = []) (hnew : NodeOK Z w'.view w.next)
    (hported : ∀ g ∈ w'.stack, ∀ n ∈ g.nodes, (w'.node n).op = .IN ∨ (w'.node n).op = .OUT → g.names.lookup (w'.node n).name = some n) :
    Good F Z N w' := by
  refine ⟨.snoc c hg.hist hp hx, ?_, ?_, hported⟩
  · intro n hn hN
    rcases (hlive n).mp hn with rfl | hl
    · exact hnew
    · refine (hg.ok n hl hN).same (hext.same n hl) fun s hs => hext.same s ?_
      rw [srcs_eq] at hs
      obtain ⟨ch, hch, rfl⟩ := List.mem_map.mp hs
      exact (hg.inv.ch.inn n hl ch hch).2.2.1
  · intro n hn
    obtain ⟨a, b, c1, d⟩ := hg.pend n hn
    obtain ⟨e1, e2, e3, -⟩ := hf n a
    have hv := congrArg NodeV.ins (hext.same n a)
    have hins : (w'.node n).ins = [] := by
      have : (w'.view n).ins = [] := by
        rw [hv, view_ins]; unfold insV; rw [c1]; rfl
      rw [view_ins] at this
      exact List.map_eq_nil_iff.mp this
    exact ⟨hext.live n a, by rw [e1, e2, e3]; exact b, hins, houts n hn⟩

theorem step_of_extends {w' : World} (hext : Extends w w') (hf : ∀ m, w.Live m → FieldsEq (w.node m) (w'.node m)) (hs : shape w' = shape w)
    (hlive : ∀ m, w'.Live m ↔ m = w.next ∨ w.Live m) (hnext : w.next ≤ w'.next) : Step [] w w' := by
  refine ⟨fun n h _ => hext.live n h, fun n h _ => hf n h, fun n hlt h => ?_, hnext, fun ρ hρ => ?_, by rw [addNames_nil]; exact hs⟩
  · have := ((hlive n).mp h).resolve_left (Nat.ne_of_lt hlt)
    exact ⟨this, hf n this⟩
  · intro m hm hop hx
    refine nodeEq_of_view (hext.same m hm) (hρ m (hext.live m hm) ?_ ?_)
    · rw [(hf m hm).1]; exact hop
    · rw [(hf m hm).1]; exact hx

/-- The rule for operators. -/
theorem Good.op (hg : Good F Z N w) {c : Cmd} {op : OpType} {data : NodeData} {ty : DFType} {l : List Nat}
    (hex : w.exec F c = retOne (w.newOp w.cur op data ty l)) (hp : Proper w c)
    (hop : op ≠ .CONST ∧ op ≠ .IN ∧ op ≠ .OUT ∧ op ≠ .NONE) (hl : ∀ a ∈ l, Opd w a)
    (hok : ∀ V : Nat → NodeV, V w.next = ⟨op, data, ty, .stream, "", reads l⟩ → (∀ a ∈ l, V a = w.view a) → NodeOK Z V w.next) :
    ∃ w', call1 F c w = .ok (w.next, w') ∧ Good F Z N w' ∧ Step [] w w' ∧ w'.Live w.next ∧ (w'.node w.next).kern = w'.cur ∧
      w'.view w.next = ⟨op, data, ty, .stream, "", reads l⟩ := by
  have hi := hg.inv
  obtain ⟨w', hw'⟩ := newOp_succeeds hi (cur_mem hi.st) (op := op) (data := data) (ty := ty) (l := l)
    (fun a ha => ⟨(hl a ha).live, (hl a ha).use⟩) hop.1
  have hlt : ∀ a ∈ l, a < w.next := fun a ha => live_lt hi.st (hl a ha).live
  have hx : w.exec F c = .ok (w', [w.next]) := by rw [hex, hw']; rfl
  obtain ⟨-, h2, h3, h4⟩ := newOp_view hi hop.1 hlt hw'
  obtain ⟨-, -, k3, k4, k5, k6, k7, -, k9⟩ := newOp_effect hi hop.1 hw' hlt
  have hf : ∀ m, w.Live m → FieldsEq (w.node m) (w'.node m) := fun m hm => k6 m (Nat.ne_of_lt (live_lt hi.st hm))
  have hsh : shape w' = shape w := by
    unfold shape
    rw [newOp_stack hw']
    exact shape_addNode w.cur _ rfl
  have st : Step [] w w' := step_of_extends h4 hf hsh k9 (by rw [k3]; exact Nat.le_succ _)
  refine ⟨w', ?_, hg.extend hx hp k9 h4 hf ?_ (hok _ h3 fun a ha => h4.same a (hl a ha).live) ?_, st, h2, ?_, h3⟩
  · unfold call1; rw [hx]
  · intro m hm
    obtain ⟨a, b, c1, d⟩ := hg.pend m hm
    have hnew := Hist.snoc c hg.hist hp hx
    have hi' := (wellUsed_hist (hnew.mono fun _ _ h => h.1)).1
    rw [List.eq_nil_iff_forall_not_mem]
    intro ch hch
    obtain ⟨-, q1, q2, q3⟩ := hi'.ch.out m (h4.live m a) ch hch
    have hedge : w'.Edge m (w'.chan ch).tgt := ⟨q2, ch, q3, q1⟩
    rcases (k7 _ _).mp hedge with ⟨lb, ch', hc', hsrc⟩ | ⟨hml, -⟩
    · have := (hi.ch.inn _ lb ch' hc').2.2.2
      rw [hsrc, d] at this
      cases this
    · rcases b with e | ⟨e, -⟩
      · exact (hl m hml).notNone e
      · exact (hl m hml).notOut e
  · exact ported_addNode (r := ⟨op, data, ty, .stream, "", w.cur, [], []⟩) ⟨hop.2.1, hop.2.2.1⟩ rfl (newOp_stack hw') hf k4 hg.ported
  · rw [k5, st.cur]

theorem reads_fst (l : List Nat) : (reads l).map Prod.fst = l := by
  unfold reads; rw [List.map_map]; exact List.map_id _

end

end Verif.Kernels
