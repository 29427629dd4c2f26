import Verif.Kernels.OpRules
/-
Rules for ports and promised variables.
-/
namespace Verif.Kernels
open Verif.Dfcxx Verif.Flow

section
variable {F : FloatOps} {Z : String → Prop} {N : List Nat} {w : World}

/-- The names of the ports of the kernel under construction. -/
def headNames (w : World) : List (String × Nat) := ((shape w).head?.map Prod.snd).getD []

theorem stack_head (hi : Inv w) : ∃ S rest, w.stack = S :: rest ∧ S.id = w.cur ∧ headNames w = S.names := by
  obtain ⟨g, hg, -⟩ := hi.st.top
  cases hs : w.stack with
  | nil => rw [hs] at hg; cases hg
  | cons S rest => exact ⟨S, rest, rfl, by unfold World.cur; rw [hs], by unfold headNames shape; rw [hs]; rfl⟩

/-- Outputs and undefined variables are not read. -/
theorem Good.no_outs (hg : Good F Z N w) {n : Nat} (hn : w.Live n) (ho : (w.node n).op = .OUT ∨ (w.node n).op = .NONE) :
    (w.node n).outs = [] := by
  rw [List.eq_nil_iff_forall_not_mem]
  intro c hc
  obtain ⟨-, q1, q2, q3⟩ := hg.inv.ch.out n hn c hc
  by_cases hN : (w.chan c).tgt ∈ N
  · rw [(hg.pend _ hN).2.2.1] at q3; cases q3
  · have := (hg.ok _ q2 hN).srcs n (by rw [srcs_eq]; exact List.mem_map.mpr ⟨c, q3, q1⟩)
    rcases ho with e | e
    · exact this.1 e
    · exact this.2 e

theorem filter_names {l : List (String × Nat)} {name : String} (h : ∀ p ∈ l, p.1 ≠ name) : (l.filter fun p => p.1 ≠ name) = l := by
  rw [List.filter_eq_self]
  intro p hp
  simpa using h p hp

/-- Adding a named node to the kernel under construction. -/
theorem shape_port (hi : Inv w) {r : NodeRec} (hn : r.name ≠ "") (hfresh : ∀ p ∈ headNames w, p.1 ≠ r.name) :
    shape (w.addNode w.cur r) = addNames [(r.name, w.next)] (shape w) := by
  obtain ⟨S, rest, h1, h2, h3⟩ := stack_head hi
  have hids := hi.st.ids
  rw [h1] at hids
  simp only [List.map_cons, List.pairwise_cons, List.mem_map] at hids
  unfold shape World.addNode
  simp only [h1, List.map_cons, List.map_map, addNames, List.cons_append, List.nil_append]
  congr 1
  · rw [if_pos h2]
    simp only
    rw [if_neg hn, filter_names (by rw [← h3]; exact hfresh)]
  · refine List.map_congr_left fun g hg => ?_
    simp only [Function.comp_apply]
    rw [if_neg]
    have := hids.1 g.id ⟨g, hg, rfl⟩
    rw [← h2]; omega

theorem ported_port (hi : Inv w) {r : NodeRec} (hr : r.op = .IN ∨ r.op = .OUT) (hn : r.name ≠ "") (hfresh : ∀ p ∈ headNames w, p.1 ≠ r.name)
    (hp : ∀ g ∈ w.stack, ∀ n ∈ g.nodes, (w.node n).op = .IN ∨ (w.node n).op = .OUT → g.names.lookup (w.node n).name = some n) :
    ∀ g ∈ (w.addNode w.cur r).stack, ∀ n ∈ g.nodes, ((w.addNode w.cur r).node n).op = .IN ∨ ((w.addNode w.cur r).node n).op = .OUT →
      g.names.lookup ((w.addNode w.cur r).node n).name = some n := by
  intro g' hg' n hng ho
  obtain ⟨g, hg, -, hcase⟩ := mem_addNode w w.cur r g' hg'
  have old : n ∈ g.nodes → n ≠ w.next ∧ g.names.lookup ((w.addNode w.cur r).node n).name = some n := by
    intro hm
    have hne := Nat.ne_of_lt (live_lt hi.st ⟨g, hg, hm⟩)
    rw [addNode_node _ _ _ _ hne] at ho ⊢
    exact ⟨hne, hp g hg n hm ho⟩
  rcases hcase with ⟨-, rfl⟩ | ⟨hid, hnodes, -, hnames⟩
  · exact (old hng).2
  · obtain ⟨S, rest, h1, h2, h3⟩ := stack_head hi
    have hgS : g = S := eq_of_id hi.st hg (by rw [h1]; simp) (by rw [hid, h2])
    rw [hnames, if_neg hn, filter_names (by rw [hgS, ← h3]; exact hfresh)]
    rw [hnodes] at hng
    rcases List.mem_cons.mp hng with rfl | hm
    · rw [addNode_new]
      simp [List.lookup_cons]
    · have hl := (old hm).2
      rw [List.lookup_cons]
      have : ((w.addNode w.cur r).node n).name ≠ r.name := by
        have := hfresh _ (by rw [h3, ← hgS]; exact lookup_mem hl)
        exact this
      rw [show (((w.addNode w.cur r).node n).name == r.name) = false by simpa using this]
      exact hl

/-- Everything common to inputs, outputs and promised variables. -/
theorem Good.addNode_step (hg : Good F Z N w) (r : NodeRec) (ps : List (String × Nat))
    (hs : shape (w.addNode w.cur r) = addNames ps (shape w)) : Step ps w (w.addNode w.cur r) := by
  have hi := hg.inv
  obtain ⟨-, -, hext⟩ := addNode_view (r := r) hi (cur_mem hi.st)
  have hf : ∀ m, w.Live m → FieldsEq (w.node m) ((w.addNode w.cur r).node m) := by
    intro m hm
    rw [addNode_node _ _ _ _ (Nat.ne_of_lt (live_lt hi.st hm))]
    exact .refl _
  refine ⟨fun n h _ => hext.live n h, fun n h _ => hf n h, fun n hlt h => ?_, Nat.le_succ _, fun ρ hρ => ?_, hs⟩
  · have := ((live_addNode _ _ _ (cur_mem hi.st) n).mp h).resolve_left (Nat.ne_of_lt hlt)
    exact ⟨this, hf n this⟩
  · intro m hm hop hx
    refine nodeEq_of_view (hext.same m hm) (hρ m (hext.live m hm) ?_ ?_)
    · rw [(hf m hm).1]; exact hop
    · rw [(hf m hm).1]; exact hx

theorem Good.pend_addNode (hg : Good F Z N w) (r : NodeRec) : ∀ n ∈ N, (w.addNode w.cur r).Live n ∧
    (((w.addNode w.cur r).node n).op = .NONE ∨ (((w.addNode w.cur r).node n).op = .OUT ∧ TypeOK ((w.addNode w.cur r).node n).ty ∧
      unsignedTy ((w.addNode w.cur r).node n).ty ∧ ((w.addNode w.cur r).node n).data = .none)) ∧ ((w.addNode w.cur r).node n).ins = [] ∧ ((w.addNode w.cur r).node n).outs = [] := by
  intro n hn
  obtain ⟨a, b, c, d⟩ := hg.pend n hn
  rw [addNode_node _ _ _ _ (Nat.ne_of_lt (live_lt hg.inv.st a))]
  exact ⟨(live_addNode _ _ _ (cur_mem hg.inv.st) n).mpr (.inr a), b, c, d⟩

theorem Good.ok_addNode (hg : Good F Z N w) (r : NodeRec) {n : Nat} (hl : w.Live n) (hN : n ∉ N) :
    NodeOK Z (w.addNode w.cur r).view n := by
  have hi := hg.inv
  obtain ⟨-, -, hext⟩ := addNode_view (r := r) hi (cur_mem hi.st)
  refine (hg.ok n hl hN).same (hext.same n hl) fun s hs => hext.same s ?_
  rw [srcs_eq] at hs
  obtain ⟨ch, hch, rfl⟩ := List.mem_map.mp hs
  exact (hi.ch.inn n hl ch hch).2.2.1

/-- An input of the kernel under construction. -/
theorem Good.input (hg : Good F Z N w) {k : Nat} {ty : DFType} (ht : TypeOK ty) (hu : unsignedTy ty) (hw : Flow.width ty = k) {name : String}
    (hn : name ≠ "") (hfresh : ∀ p ∈ headNames w, p.1 ≠ name) :
    ∃ n w', call1 F (.input false name ty) w = .ok (n, w') ∧ Good F Z N w' ∧ Step [(name, n)] w w' ∧
      Val w' n (fun ρ => BitVec.ofNat k (ρ n).2) ∧ (w'.node n).kern = w'.cur ∧ (w'.node n).op = .IN ∧ (w'.node n).kind = .stream ∧
      (w'.node n).name = name := by
  have hi := hg.inv
  set r : NodeRec := ⟨.IN, .none, ty, .stream, name, w.cur, [], []⟩ with hr
  have hx : w.exec F (.input false name ty) = .ok (w.addNode w.cur r, [w.next]) := by
    unfold World.exec
    rw [if_neg (by simp [Cmd.vars])]
    rfl
  obtain ⟨hlive, hview, hext⟩ := addNode_view (r := r) hi (cur_mem hi.st)
  have st : Step [(name, w.next)] w (w.addNode w.cur r) := hg.addNode_step r _ (shape_port hi hn hfresh)
  have hnode := addNode_new w w.cur r
  refine ⟨w.next, w.addNode w.cur r, by unfold call1; rw [hx], ⟨.snoc (.input false name ty) hg.hist ⟨⟨trivial, trivial, trivial⟩, trivial⟩ hx, ?_,
    hg.pend_addNode r, ported_port hi (.inl rfl) hn hfresh hg.ported⟩, st, ?_, ?_, ?_, ?_, ?_⟩
  · intro n hl hN
    rcases (live_addNode _ _ _ (cur_mem hi.st) n).mp hl with rfl | hl
    · have hsr : ((w.addNode w.cur r).view w.next).srcs = [] := by rw [hview]; rfl
      refine ⟨fun L => ⟨by rw [hview]; exact ht, ?_⟩, by rw [hview]; exact hu, by rw [hview]; simp [hr], by rw [hview]; simp [hr], by rw [hview]; simp [hr],
        by rw [hsr]; simp, .inl (by rw [hsr]; simp), by rw [hview]; simp [hr], by rw [hview]; simp [hr], by rw [hview]; simp [hr]⟩
      rw [show ((w.addNode w.cur r).view w.next).op = .IN by rw [hview]]
      trivial
    · exact hg.ok_addNode r hl hN
  · refine ⟨hlive, .inl (by rw [hnode, st.cur]), by rw [hnode]; simp [hr], by rw [hnode]; simp [hr], by rw [hnode]; exact hw, ?_⟩
    intro ρ hρ
    have := hρ.ins w.next hlive (by rw [hnode])
    rw [hnode] at this
    rw [BitVec.toNat_ofNat, Nat.mod_eq_of_lt (by rw [← hw]; exact this.2)]
    exact Prod.ext (this.1.trans hw) rfl
  · rw [hnode, st.cur]
  · rw [hnode]
  · rw [hnode]
  · rw [hnode]

/-- An output of the kernel under construction, not yet connected. -/
theorem Good.output (hg : Good F Z N w) {ty : DFType} (ht : TypeOK ty) (hu : unsignedTy ty) {name : String}
    (hn : name ≠ "") (hfresh : ∀ p ∈ headNames w, p.1 ≠ name) :
    ∃ n w', call1 F (.output false name ty) w = .ok (n, w') ∧ n ∉ N ∧ Good F Z (n :: N) w' ∧ Step [(name, n)] w w' ∧ w'.Live n ∧
      (w'.node n).op = .OUT ∧ (w'.node n).kern = w'.cur ∧ (w'.node n).ty = ty := by
  have hi := hg.inv
  set r : NodeRec := ⟨.OUT, .none, ty, .stream, name, w.cur, [], []⟩ with hr
  have hx : w.exec F (.output false name ty) = .ok (w.addNode w.cur r, [w.next]) := by
    unfold World.exec
    rw [if_neg (by simp [Cmd.vars])]
    rfl
  obtain ⟨hlive, hview, hext⟩ := addNode_view (r := r) hi (cur_mem hi.st)
  have st : Step [(name, w.next)] w (w.addNode w.cur r) := hg.addNode_step r _ (shape_port hi hn hfresh)
  have hnode := addNode_new w w.cur r
  have hnew : w.next ∉ N := fun h => Nat.lt_irrefl _ (live_lt hi.st (hg.pend _ h).1)
  refine ⟨w.next, w.addNode w.cur r, by unfold call1; rw [hx], hnew, ⟨.snoc (.output false name ty) hg.hist ⟨⟨trivial, trivial, trivial⟩, trivial⟩ hx, ?_,
    ?_, ported_port hi (.inr rfl) hn hfresh hg.ported⟩, st, hlive, ?_, ?_, ?_⟩
  · intro n hl hN
    have hne : n ≠ w.next := fun h => hN (by simp [h])
    rcases (live_addNode _ _ _ (cur_mem hi.st) n).mp hl with rfl | hl
    · exact absurd rfl hne
    · exact hg.ok_addNode r hl fun h => hN (by simp [h])
  · intro n hm
    rcases List.mem_cons.mp hm with rfl | hm
    · rw [hnode]
      exact ⟨hlive, .inr ⟨rfl, ht, hu, rfl⟩, rfl, rfl⟩
    · exact hg.pend_addNode r n hm
  · rw [hnode]
  · rw [hnode, st.cur]
  · rw [hnode]

/-- A promised variable. -/
theorem Good.newVar (hg : Good F Z N w) (ty : DFType) :
    ∃ n w', call1 F (.newVar false ty) w = .ok (n, w') ∧ n ∉ N ∧ Good F Z (n :: N) w' ∧ Step [] w w' ∧ w'.Live n ∧
      (w'.node n).op = .NONE ∧ (w'.node n).kern = w'.cur := by
  have hi := hg.inv
  set r : NodeRec := ⟨.NONE, .none, ty, .stream, "", w.cur, [], []⟩ with hr
  have hx : w.exec F (.newVar false ty) = .ok (w.addNode w.cur r, [w.next]) := by
    unfold World.exec
    rw [if_neg (by simp [Cmd.vars])]
    rfl
  obtain ⟨hlive, hview, hext⟩ := addNode_view (r := r) hi (cur_mem hi.st)
  have st : Step [] w (w.addNode w.cur r) := hg.addNode_step r _ (by rw [addNames_nil]; exact shape_addNode _ _ rfl)
  have hnode := addNode_new w w.cur r
  have hnew : w.next ∉ N := fun h => Nat.lt_irrefl _ (live_lt hi.st (hg.pend _ h).1)
  refine ⟨w.next, w.addNode w.cur r, by unfold call1; rw [hx], hnew, ⟨.snoc (.newVar false ty) hg.hist ⟨⟨trivial, trivial, trivial⟩, trivial⟩ hx, ?_,
    ?_, ported_addNode (r := r) (by simp [hr]) rfl rfl ?_ (by rw [hnode]) hg.ported⟩, st, hlive, ?_, ?_⟩
  · intro n hl hN
    have hne : n ≠ w.next := fun h => hN (by simp [h])
    rcases (live_addNode _ _ _ (cur_mem hi.st) n).mp hl with rfl | hl
    · exact absurd rfl hne
    · exact hg.ok_addNode r hl fun h => hN (by simp [h])
  · intro n hm
    rcases List.mem_cons.mp hm with rfl | hm
    · rw [hnode]
      exact ⟨hlive, .inl rfl, rfl, rfl⟩
    · exact hg.pend_addNode r n hm
  · intro m hm
    rw [addNode_node _ _ _ _ (Nat.ne_of_lt (live_lt hi.st hm))]
    exact .refl _
  · rw [hnode]
  · rw [hnode, st.cur]

theorem dep_no_outs (hi : Inv w) {a b : Nat} (h : (w.node a).outs = []) (hd : w.Dep a b) : b = a := by
  induction hd with
  | refl => rfl
  | step _ e ih =>
    subst ih
    obtain ⟨l, c, hc, hs⟩ := e
    have := (hi.ch.inn _ l c hc).2.2.2
    rw [hs, h] at this
    cases this

/-- Connecting an output. -/
theorem Good.connect {o s k : Nat} (hg : Good F Z (o :: N) w) (hoN : o ∉ N) (ho : (w.node o).op = .OUT) (hok : (w.node o).kern = w.cur)
    (hwo : Flow.width (w.node o).ty = k) {e : (Nat → Pat) → BitVec k} (hs : Val w s e) :
    ∃ w', call F (.connect o s) w = .ok ([], w') ∧ Good F Z N w' ∧ Step [] w w' ∧ (w'.view o).ins = [(s, true)] ∧ w'.Live o ∧
      FieldsEq (w.node o) (w'.node o) := by
  have hi := hg.inv
  obtain ⟨lo, hpo, io, oo⟩ := hg.pend o (by simp)
  obtain ⟨-, tyo, uo, dato⟩ := hpo.resolve_left (by rw [ho]; simp)
  obtain ⟨ts, us⟩ := opd_facts hg hs
  have hne : s ≠ o := by rintro rfl; exact hs.notOut ho
  set w' := w.link s o 0 true with hw'
  have hx : w.exec F (.connect o s) = .ok (w', []) := by
    unfold World.exec
    rw [if_neg (exec_guard hi (c := .connect o s) (by simp [Cmd.vars, lo, hs.live]))]
    obtain ⟨g, hg1, hg2⟩ := hs.live
    obtain ⟨g', hg1', hg2'⟩ := lo
    have k1 := kernel_eq hi.st hg1
    have k2 := kernel_eq hi.st hg1'
    have e2 := (hi.st.own g' hg1' o hg2').2
    have hc : w.addChannel (w.node o).kern s o 0 true = .ok w' := by
      unfold World.addChannel
      rw [e2, k2]
      have : w.kernel (if (w.node s).kind.isConst then 0 else g'.id) = some g := by
        by_cases hcs : (w.node s).op = .CONST
        · rw [if_pos ((hi.st.const s (live_lt hi.st hs.live)).mp hcs), ← (hi.st.constTop g hg1 s hg2 hcs).2]
          exact k1
        · rw [if_neg fun h => hcs ((hi.st.const s (live_lt hi.st hs.live)).mpr h)]
          have e1 := (hi.st.own g hg1 s hg2).2
          have : g'.id = g.id := by rw [← e1, ← e2, hok, hs.use.resolve_right hcs]
          rw [this]; exact k1
      rw [this]
      simp only
      rw [if_pos ⟨hg2, hg2'⟩]
    simp only [hc]
    rfl
  have hp : Proper w (.connect o s) := by
    refine ⟨⟨trivial, ⟨by rw [ho]; simp, fun hd => hne (dep_no_outs hi oo hd)⟩, .inl ho⟩, trivial⟩
  have hf : ∀ m, FieldsEq (w.node m) (w'.node m) := by
    intro m
    obtain ⟨h1, h2, h3, h4, h5, h6⟩ := link_fields w s o 0 true m
    exact ⟨h1, h6, h5, h2, h4, h3⟩
  have hins : ∀ m, w.Live m → insV w' m = if m = o then insV w m ++ [(s, true)] else insV w m := by
    intro m hm
    rw [insV_link hi hm]
  have hview : ∀ m, w.Live m → m ≠ o → w'.view m = w.view m := by
    intro m hm hmo
    exact view_congr (hf m) (by rw [hins m hm, if_neg hmo])
  have hvo : (w'.view o).ins = [(s, true)] := by
    rw [view_ins, hins o lo, if_pos rfl]
    unfold insV; rw [io]; rfl
  have hst : w'.stack = w.stack := rfl
  have hsrclive : ∀ m, w.Live m → ∀ x ∈ (w.view m).srcs, w.Live x := by
    intro m hm x hx
    rw [srcs_eq] at hx
    obtain ⟨ch, hch, rfl⟩ := List.mem_map.mp hx
    exact (hi.ch.inn m hm ch hch).2.2.1
  have hvs : w'.view s = w.view s := hview s hs.live hne
  have hist' := Hist.snoc (.connect o s) hg.hist hp hx
  refine ⟨w', by unfold call; rw [hx], ⟨hist', ?_, ?_, ?_⟩, ?_, hvo, lo, hf o⟩
  · intro n hl hN
    by_cases hno : n = o
    · subst hno
      have hsr : (w'.view n).srcs = [s] := by unfold NodeV.srcs; rw [hvo]; rfl
      have hopn : (w'.view n).op = .OUT := (hf n).1.trans ho
      have htyn : (w'.view n).ty = (w.node n).ty := (hf n).2.2.1
      refine ⟨fun L => ⟨by rw [htyn]; exact tyo, ?_⟩, by rw [htyn]; exact uo, by rw [hopn]; simp, by rw [hopn]; simp, by rw [hopn]; simp, ?_, .inl (by rw [hsr]; simp), by rw [hopn]; simp, fun _ => by rw [hvo]; rfl, fun j => by rw [show (w'.view n).data = _ from (hf n).2.1, dato]; simp⟩
      · rw [hopn]
        simp only
        rw [hsr]
        simp only [List.mem_cons, List.not_mem_nil, or_false]
        rintro x rfl
        rw [hvs, htyn]
        exact ⟨hs.width.trans hwo.symm, us.trans uo.symm⟩
      · rw [hsr]
        simp only [List.mem_cons, List.not_mem_nil, or_false]
        rintro x rfl
        rw [hvs]; exact ⟨hs.notOut, hs.notNone⟩
    · have h0 := hg.ok n hl (by simp [hno, hN])
      refine h0.same (hview n hl hno) fun x hxs => hview x (hsrclive n hl x hxs) fun e => ?_
      exact (h0.srcs x hxs).1 (e ▸ ho)
  · intro n hn
    have hno : n ≠ o := by rintro rfl; exact hoN hn
    obtain ⟨a, b, c, d⟩ := hg.pend n (by simp [hn])
    have hns : n ≠ s := by
      rintro rfl
      rcases b with e | ⟨e, -⟩
      · exact hs.notNone e
      · exact hs.notOut e
    obtain ⟨f1, f2, f3, -⟩ := hf n
    refine ⟨a, by rw [f1, f2, f3]; exact b, ?_, ?_⟩
    · rw [hw']; unfold World.link; simp only [if_neg hno, if_neg hns]; exact c
    · rw [hw']; unfold World.link; simp only [if_neg hno, if_neg hns]; exact d
  · intro g hg' n hn ho'
    obtain ⟨f1, -, -, -, f5, -⟩ := hf n
    rw [f5]
    exact hg.ported g hg' n hn (by rw [f1] at ho'; exact ho')
  · refine ⟨fun n h _ => h, fun n h _ => hf n, fun n _ h => ⟨h, hf n⟩, Nat.le_refl _, fun ρ hρ => ?_, by rw [addNames_nil]; rfl⟩
    intro m hm hop hX
    by_cases hmo : m = o
    · subst hmo
      unfold NodeEq
      rw [show (w.view m).op = .OUT from ho]
      intro x hx
      rw [srcs_eq, io] at hx; cases hx
    · exact nodeEq_of_view (hview m hm hmo) (hρ m hm (by rw [(hf m).1]; exact hop) (by rw [(hf m).1]; exact hX))

end

end Verif.Kernels
