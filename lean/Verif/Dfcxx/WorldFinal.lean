import Verif.Dfcxx.WorldProps
import Verif.Dfcxx.SimProps
/-
From histories of calls to the ordering, simulation and translation theorems (C01, C13, C24), and unbound inputs of instances
(C11).
-/
namespace Verif.Dfcxx

theorem insV_live {w : World} (hi : Inv w) {m : Nat} (hm : w.Live m) {p : Nat × Bool} (hp : p ∈ insV w m) : w.Live p.1 := by
  unfold insV at hp
  simp only [List.mem_map] at hp
  obtain ⟨c, hc, rfl⟩ := hp
  exact (hi.ch.inn m hm c hc).2.2.1

theorem tinv_exec {F : FloatOps} {w w' : World} {cmd : Cmd} {rs : List Nat} (hi : Inv w) (ht : TInv w) (hc : Clean w cmd)
    (hy : Typed w cmd) (h : w.exec F cmd = .ok (w', rs)) : TInv w' := by
  have addN : ∀ (k : Nat) (r : NodeRec), (∃ g ∈ w.stack, g.id = k) → TInv (w.addNode k r) := by
    intro k r hk m hm hop p hp
    rw [insV_addNode] at hp
    by_cases hne : m = w.next
    · rw [if_pos hne] at hp; cases hp
    rw [if_neg hne] at hp
    have lm := ((live_addNode w k r hk m).mp hm).resolve_left hne
    have lp := live_lt hi.st (insV_live hi lm hp)
    rw [addNode_node _ _ _ _ hne] at hop ⊢
    rw [addNode_node _ _ _ _ (Nat.ne_of_lt lp)]
    exact ht m lm hop p hp
  cases exec_shape h with
  | new op ty sc name hop e _ => subst e; exact addN _ _ (cur_mem hi.st)
  | const ty v n hh _ _ _ =>
    obtain ⟨hk, g, -, (⟨rfl, -⟩ | ⟨-, -, rfl⟩)⟩ := createOrUseConst_ok hh
    · exact ht
    · exact addN _ _ hk
  | op k op data ty l n hop _ hh hl =>
    have hv := exec_vars h
    obtain ⟨-, hk, en, -, -, hf, -, -, hlive⟩ := newOp_effect hi hop.isOp.1 hh (by rw [hl]; exact hv)
    obtain ⟨q1, q2, q3, -⟩ := newOp_fields hi hop.isOp.1 hh
    intro m hm hopm p hp
    rw [insV_newOp hi hop.isOp.1 hh m ((hlive m).mp hm).symm] at hp
    by_cases hne : m = w.next
    · rw [if_pos hne] at hp
      rw [hne, q1] at hopm
      simp only [List.mem_map] at hp
      obtain ⟨a, ha, rfl⟩ := hp
      have hoff : op = .OFFSET := by
        rcases hopm with e | e | e
        · exact absurd e hop.isOp.2.2.1
        · exact absurd e hop.isOp.2.2.2
        · exact e
      have hlt : a < w.next := hv a (hl ▸ ha)
      dsimp only
      rw [hne, q3, (hf a (Nat.ne_of_lt hlt)).2.2.1]
      exact (hop.offset hoff).2 a ha
    · rw [if_neg hne] at hp
      have lm := ((hlive m).mp hm).resolve_left hne
      have lp := live_lt hi.st (insV_live hi lm hp)
      rw [(hf m hne).1] at hopm
      rw [(hf m hne).2.2.1, (hf _ (Nat.ne_of_lt lp)).2.2.1]
      exact ht m lm hopm p hp
  | same a e _ _ _ => subst e; exact ht
  | connect a b hh =>
    obtain ⟨e, -, -⟩ := addChannel_live hh
    subst e
    intro m hm hop p hp
    have hm : w.Live m := hm
    have hty : ∀ x, ((w.link b a 0 true).node x).ty = (w.node x).ty := fun x => (link_fields w b a 0 true x).2.2.2.2.1
    rw [(link_fields w b a 0 true m).1] at hop
    rw [hty, hty]
    rw [insV_link hi hm] at hp
    split at hp
    · rename_i e
      simp only [List.mem_append, List.mem_singleton] at hp
      rcases hp with hp | rfl
      · exact ht m hm hop p hp
      · subst e; exact hy.symm
    · exact ht m hm hop p hp
  | begin e =>
    subst e
    intro m hm hop p hp
    refine ht m ?_ hop p hp
    obtain ⟨g, hg, hn⟩ := hm
    rcases List.mem_cons.mp hg with rfl | hg
    · cases hn
    · exact ⟨g, hg, hn⟩
  | inst bs S K rest hst w1 _ h1 h2 =>
    have steps := bindAll_steps bs w w1 S K rest _ hi hst (clean_lookup hst hc) h1
    have t1 := steps.types ht (by
      intro g hg b hb n hn
      rw [hst] at hg
      simp only [List.head?_cons, Option.mem_some_iff] at hg
      subst hg
      exact hy b hb n ⟨S, K :: rest, hst, hn⟩)
    obtain ⟨-, -, e3, e4⟩ := transfer_same h2
    intro m hm hop p hp
    rw [transfer_insV h2] at hp
    rw [(e4 m).1] at hop
    rw [(e4 m).2.2.1, (e4 _).2.2.1]
    exact t1 m ((e3 m).mp hm) hop p hp

/-- Everything a sensible history guarantees. -/
theorem wellUsed_hist {F : FloatOps} {w : World} (h : Hist F WellUsed World.init w) : Inv w ∧ AInv w ∧ NInv w := by
  induction h with
  | nil =>
    refine ⟨inv_init, ainv_init, ?_⟩
    rintro m ⟨g, hg, hn⟩
    simp only [World.init, List.mem_singleton] at hg
    subst hg; cases hn
  | snoc c _ hp he ih =>
    obtain ⟨h1, h2, h3⟩ := ih
    exact ⟨inv_exec h1 hp.clean he, ainv_exec h1 h2 hp.clean hp.forward he, ninv_exec h1 h3 hp.clean hp.sane he⟩

theorem typed_hist {F : FloatOps} {w : World} (h : Hist F (fun w c => Clean w c ∧ Typed w c) World.init w) : Inv w ∧ TInv w := by
  induction h with
  | nil =>
    refine ⟨inv_init, ?_⟩
    rintro m ⟨g, hg, hn⟩
    simp only [World.init, List.mem_singleton] at hg
    subst hg; cases hn
  | snoc c _ hp he ih => exact ⟨inv_exec ih.1 hp.1 he, tinv_exec ih.1 ih.2 hp.1 hp.2 he⟩

/-- If all connections and bindings are between variables of equal type, then every offset has the type of the stream it reads. -/
theorem typed_offsets {F : FloatOps} {w : World} (h : Hist F (fun w c => Clean w c ∧ Typed w c) World.init w) {n : Nat} (hn : w.Live n)
    (ho : (w.node n).op = .OFFSET) : ∀ s ∈ (w.view n).srcs, (w.view s).ty = (w.view n).ty := by
  have key := typed_hist h
  intro s hs
  unfold NodeV.srcs at hs
  simp only [List.mem_map] at hs
  obtain ⟨p, hp, rfl⟩ := hs
  exact key.2 n hn (Or.inr (Or.inr ho)) p hp

theorem Hist.mono {F : FloatOps} {P Q : World → Cmd → Prop} {w w' : World} (h : Hist F P w w') (hpq : ∀ w c, P w c → Q w c) :
    Hist F Q w w' := by
  induction h with
  | nil => exact .nil _
  | snoc c _ hp he ih => exact .snoc c ih (hpq _ _ hp) he

/-! ### Inputs -/

theorem transfer_stack {w w' : World} (h : w.transfer = .ok w') : ∃ S K rest, w.stack = S :: K :: rest ∧
    w'.stack = { K with
        nodes := K.nodes ++ S.nodes
        starts := K.starts ++ S.starts.filter fun n => (w.node n).op = .CONST } :: rest := by
  unfold World.transfer at h
  split at h
  swap
  · cases h
  rename_i S K rest hst
  injection h with h
  exact ⟨S, K, rest, hst, by rw [← h]⟩

/-- Adding operands changes neither the stack nor the inputs of other nodes. -/
theorem newOp_stack {w w' : World} {k n : Nat} {op : OpType} {data : NodeData} {ty : DFType} {l : List Nat}
    (h : w.newOp k op data ty l = .ok (w', n)) : w'.stack = (w.addNode k ⟨op, data, ty, .stream, "", k, [], []⟩).stack := by
  obtain ⟨e, hk, h⟩ := newOp_ok h
  clear e hk
  have : ∀ (l : List Nat) (i : Nat) (w w' : World) (t : Nat), w.addOperands k t i l = .ok w' → w'.stack = w.stack := by
    intro l
    induction l with
    | nil => intro i w w' t h; unfold World.addOperands at h; injection h with h; rw [h]
    | cons x rest ih =>
      intro i w w' t h
      unfold World.addOperands at h
      obtain ⟨w1, h1, h2⟩ := bind_ok h
      obtain ⟨e, -, -⟩ := addChannel_live h1
      rw [ih _ _ _ _ h2, e]
      rfl
  exact this _ _ _ _ _ h

theorem lookup_filter_of_ne {l : List (String × Nat)} {s t : String} {n : Nat} (h : l.lookup s = some n) (hne : s ≠ t) :
    (l.filter fun p => p.1 ≠ t).lookup s = some n := by
  induction l with
  | nil => simp at h
  | cons p ps ih =>
    obtain ⟨a, b⟩ := p
    rw [List.lookup_cons] at h
    by_cases hs : s = a
    · have h1 : (s == a) = true := by simpa using hs
      rw [List.filter_cons_of_pos (by simpa using hs ▸ hne), List.lookup_cons]
      rw [h1] at h ⊢
      exact h
    · have h1 : (s == a) = false := by simpa using hs
      rw [h1] at h
      by_cases ha : a = t
      · rw [List.filter_cons_of_neg (by simpa using ha)]; exact ih h
      · rw [List.filter_cons_of_pos (by simpa using ha), List.lookup_cons, h1]; exact ih h

/-- Bindings only remove. -/
theorem BindSteps.sub {w w' : World} {bs : List (Nat × String)} {hds : List Nat} (h : BindSteps w w' bs hds)
    (hI : ∀ g ∈ w.stack, ∀ n ∈ g.nodes, (w.node n).op = .IN → n ∈ g.starts) :
    ∀ g ∈ w'.stack, ∀ n ∈ g.nodes, (w'.node n).op = .IN → n ∈ g.starts := by
  induction h with
  | nil => exact hI
  | @cons w w1 w2 b bs hd hds st _ ih =>
    apply ih
    rw [st.stack']
    intro g hg n hn hop
    rw [st.same.op] at hop
    simp only [List.mem_cons] at hg
    rcases hg with rfl | rfl | hg
    · simp only [List.mem_filter] at hn ⊢
      exact ⟨hI _ (by rw [st.stack]; simp) n hn.1 hop, hn.2⟩
    · simp only [List.mem_filter] at hn ⊢
      exact ⟨hI _ (by rw [st.stack]; simp) n hn.1 hop, hn.2⟩
    · exact hI g (by rw [st.stack]; simp [hg]) n hn hop

/-- A bound input is gone from the instance. -/
theorem BindSteps.bound_gone {w w' : World} {bs : List (Nat × String)} {hds : List Nat} (h : BindSteps w w' bs hds)
    {S : KGraph} {rest : List KGraph} (hst : w.stack = S :: rest) {S' : KGraph} {rest' : List KGraph} (hst' : w'.stack = S' :: rest') :
    (∀ n, n ∈ S'.nodes → n ∈ S.nodes) ∧ (∀ n, (w'.node n).op = (w.node n).op) ∧
      ∀ b ∈ bs, ∀ n, S.names.lookup b.2 = some n → n ∉ S'.nodes := by
  induction h generalizing S rest with
  | nil =>
    rw [hst] at hst'
    injection hst' with e1 e2
    subst e1
    exact ⟨fun _ h => h, fun _ => rfl, by simp⟩
  | @cons w w1 w2 b bs hd hds st steps ih =>
    have hS : S = st.gS := by
      have := st.stack
      rw [hst] at this
      injection this
    subst hS
    obtain ⟨h1, h2, h3⟩ := ih st.stack' hst'
    refine ⟨fun n hn => (List.mem_filter.mp (h1 n hn)).1, fun n => (h2 n).trans (st.same.op n), ?_⟩
    intro b' hb' n hn hS'
    have hne : n ≠ st.n := by simpa using (List.mem_filter.mp (h1 n hS')).2
    rcases List.mem_cons.mp hb' with rfl | hb'
    · rw [st.look] at hn
      injection hn with hn
      exact hne hn.symm
    · by_cases e : b'.2 = b.2
      · rw [e, st.look] at hn
        injection hn with hn
        exact hne hn.symm
      · refine h3 b' hb' n ?_ hS'
        dsimp only
        exact lookup_filter_of_ne hn e

/-- If every instance binds all its inputs, then all inputs of the kernels are start nodes. -/
theorem inputs_are_starts {F : FloatOps} {w : World} (h : Hist F (fun w c => Clean w c ∧ BindsInputs w c) World.init w) :
    ∀ g ∈ w.stack, ∀ n ∈ g.nodes, (w.node n).op = .IN → n ∈ g.starts := by
  suffices hh : Inv w ∧ ∀ g ∈ w.stack, ∀ n ∈ g.nodes, (w.node n).op = .IN → n ∈ g.starts from hh.2
  induction h with
  | nil =>
    refine ⟨inv_init, ?_⟩
    intro g hg n hn
    simp only [World.init, List.mem_singleton] at hg
    subst hg; cases hn
  | @snoc w w' rs cmd _ hp he ih =>
    obtain ⟨hi, hI⟩ := ih
    refine ⟨inv_exec hi hp.1 he, ?_⟩
    have addN : ∀ (k : Nat) (r : NodeRec), ∀ g ∈ (w.addNode k r).stack, ∀ n ∈ g.nodes, ((w.addNode k r).node n).op = .IN → n ∈ g.starts := by
      intro k r g' hg' n hn hop
      simp only [World.addNode, List.mem_map] at hg'
      obtain ⟨g, hg, rfl⟩ := hg'
      by_cases hne : n = w.next
      · split at hn
        · rename_i hk
          rw [if_pos hk]
          rw [hne, addNode_new] at hop
          dsimp only at hop ⊢
          rw [if_pos (Or.inl hop), hne]
          exact List.mem_cons_self
        · exact absurd (hi.st.own g hg n hn).1 (by omega)
      · rw [addNode_node _ _ _ _ hne] at hop
        split at hn
        · rename_i hk
          rw [if_pos hk]
          dsimp only at hn ⊢
          have := hI g hg n ((List.mem_cons.mp hn).resolve_left hne) hop
          split
          · exact List.mem_cons_of_mem _ this
          · exact this
        · rename_i hk
          rw [if_neg hk]
          exact hI g hg n hn hop
    cases exec_shape he with
    | new op ty sc name hop e _ => subst e; exact addN _ _
    | const ty v x hh _ _ _ =>
      obtain ⟨hk, g, -, (⟨rfl, -⟩ | ⟨-, -, rfl⟩)⟩ := createOrUseConst_ok hh
      · exact hI
      · exact addN _ _
    | op k op data ty l x hop _ hh hl =>
      obtain ⟨-, hk, en, -, -, hf, -, -, hlive⟩ := newOp_effect hi hop.isOp.1 hh (by rw [hl]; exact exec_vars he)
      obtain ⟨q1, -⟩ := newOp_fields hi hop.isOp.1 hh
      rw [newOp_stack hh]
      intro g hg n hn ho
      refine addN _ _ g hg n hn ?_
      by_cases hne : n = w.next
      · rw [hne, q1] at ho; exact absurd ho hop.isOp.2.1
      · rw [addNode_node _ _ _ _ hne, ← (hf n hne).1]; exact ho
    | same a e _ _ _ => subst e; exact hI
    | connect a b hh =>
      obtain ⟨e, -, -⟩ := addChannel_live hh
      subst e
      intro g hg n hn ho
      rw [(link_fields w b a 0 true n).1] at ho
      exact hI g hg n hn ho
    | begin e =>
      subst e
      intro g hg n hn ho
      rcases List.mem_cons.mp hg with rfl | hg
      · cases hn
      · exact hI g hg n hn ho
    | inst bs S K rest hst w1 _ h1 h2 =>
      have steps := bindAll_steps bs w w1 S K rest _ hi hst (clean_lookup hst hp.1) h1
      have I1 := steps.sub hI
      obtain ⟨S', K', rest', e1, e2⟩ := transfer_stack h2
      obtain ⟨-, -, -, e4⟩ := transfer_same h2
      obtain ⟨g1, g2, g3⟩ := steps.bound_gone hst e1
      rw [e2]
      intro g hg n hn ho
      rw [(e4 n).1] at ho
      rcases List.mem_cons.mp hg with rfl | hg
      · dsimp only at hn ⊢
        rcases List.mem_append.mp hn with hn | hn
        · exact List.mem_append_left _ (I1 K' (by rw [e1]; simp) n hn ho)
        · exfalso
          obtain ⟨b, hb, S'', rest'', e5, e6⟩ := hp.2 S _ hst n (g1 n hn) ((g2 n).symm.trans ho)
          rw [hst] at e5
          injection e5 with e5 _
          subst e5
          exact g3 b hb n e6 hn
      · exact I1 g (by rw [e1]; simp [hg]) n hn ho

/-! ### The finished kernel -/

theorem srcs_eq (w : World) (m : Nat) : (w.view m).srcs = (w.node m).ins.map fun c => (w.chan c).src := by
  simp [NodeV.srcs, World.view]

theorem sort_edge {w : World} {g : KGraph} {G : TopSort.Graph Nat} (hi : Inv w) (hg : w.stack = [g]) (he : Enumeration w g G)
    {a b : Nat} : G.Edge a b ↔ w.Edge a b := by
  have hl : ∀ v, w.Live v ↔ v ∈ g.nodes := by intro v; unfold World.Live; rw [hg]; simp
  unfold TopSort.Graph.Edge World.Edge
  by_cases ha : a ∈ g.nodes
  · rw [he.outs a ha]
    simp only [List.mem_map]
    constructor
    · rintro ⟨c, hc, rfl⟩
      obtain ⟨-, h2, h3, h4⟩ := hi.ch.out a ((hl a).mpr ha) c hc
      exact ⟨h3, c, h4, h2⟩
    · rintro ⟨lb, c, hc, rfl⟩
      obtain ⟨-, h2, h3, h4⟩ := hi.ch.inn b lb c hc
      exact ⟨c, h4, h2⟩
  · rw [he.dead a ha]
    refine ⟨fun h => (by cases h), ?_⟩
    rintro ⟨lb, c, hc, rfl⟩
    exact absurd ((hl _).mp (hi.ch.inn b lb c hc).2.2.1) ha

theorem sort_wf {w : World} {g : KGraph} {G : TopSort.Graph Nat} (hi : Inv w) (hg : w.stack = [g]) (he : Enumeration w g G) :
    G.WF := by
  have hm : g ∈ w.stack := by rw [hg]; simp
  have hl : ∀ v, w.Live v ↔ v ∈ g.nodes := by intro v; unfold World.Live; rw [hg]; simp
  refine ⟨he.nodes.nodup_iff.mpr (hi.st.nodes g hm), he.starts.nodup_iff.mpr (hi.st.starts g hm).1, ?_, ?_⟩
  · intro a ha
    exact he.nodes.mem_iff.mpr ((hi.st.starts g hm).2 a (he.starts.mem_iff.mp ha)).1
  · intro a _ b hab
    exact he.nodes.mem_iff.mpr ((hl b).mp ((sort_edge hi hg he).mp hab).1)

theorem sort_acyclic {w : World} {g : KGraph} {G : TopSort.Graph Nat} (hi : Inv w) {R : Nat → Nat} (hR : Ranked w R)
    (hg : w.stack = [g]) (he : Enumeration w g G) : G.Acyclic := by
  have : ∀ a b, G.Path a b → R a < R b := by
    intro a b h
    induction h with
    | single e => exact hR _ _ ((sort_edge hi hg he).mp e)
    | tail _ e ih => exact Nat.lt_trans ih (hR _ _ ((sort_edge hi hg he).mp e))
  intro a h
  exact Nat.lt_irrefl _ (this a a h)

/-- An operator node has an operand. -/
theorem NodeOK.ins_ne_nil {v : NodeV} (h : NodeOK v) (h1 : v.op ≠ .IN) (h2 : v.op ≠ .CONST) (h3 : v.op ≠ .OUT)
    (h4 : v.op ≠ .NONE) : v.ins ≠ [] := by
  intro e
  have hm := h.mux
  have hu := h.unary
  have hb := h.binary
  rw [e] at hm hu hb
  cases ho : v.op <;> simp_all

theorem sort_reach {w : World} {g : KGraph} {G : TopSort.Graph Nat} (hi : Inv w) (hn : NInv w) {R : Nat → Nat} (hR : Ranked w R)
    (hf : Finished w g) (hin : ∀ g ∈ w.stack, ∀ n ∈ g.nodes, (w.node n).op = .IN → n ∈ g.starts) (he : Enumeration w g G) :
    ∀ x ∈ G.nodes, G.Reach x := by
  have hm : g ∈ w.stack := by rw [hf.only]; simp
  have hl : ∀ v, w.Live v ↔ v ∈ g.nodes := by intro v; unfold World.Live; rw [hf.only]; simp
  suffices ∀ k x, R x = k → x ∈ g.nodes → G.Reach x from fun x hx => this _ x rfl (he.nodes.mem_iff.mp hx)
  intro k
  induction k using Nat.strong_induction_on with
  | _ k ih =>
    intro x hk hx
    have step : (w.node x).ins ≠ [] → G.Reach x := by
      intro hne
      obtain ⟨c, hc⟩ := List.exists_mem_of_ne_nil _ hne
      have lx := (hl x).mpr hx
      have e : w.Edge (w.chan c).src x := ⟨lx, c, hc, rfl⟩
      have hs := (hl _).mp (hi.ch.inn x lx c hc).2.2.1
      exact .step (ih (R (w.chan c).src) (hk ▸ hR _ _ e) _ rfl hs) ((sort_edge hi hf.only he).mpr e)
    by_cases h1 : (w.node x).op = .IN
    · exact .start (he.starts.mem_iff.mpr (hin g hm x hx h1))
    by_cases h2 : (w.node x).op = .CONST
    · exact .start (he.starts.mem_iff.mpr (hi.st.constTop g hm x hx h2).1)
    by_cases h3 : (w.node x).op = .OUT
    · refine step ?_
      intro e
      have := hf.outputs x hx h3
      rw [e] at this
      cases this
    by_cases h4 : (w.node x).op = .NONE
    · have := hf.check
      unfold World.check at this
      rw [List.all_eq_true] at this
      simpa [h4] using this x hx
    · refine step ?_
      intro e
      refine (hn x ((hl x).mpr hx)).ins_ne_nil h1 h2 h3 h4 ?_
      rw [view_ins]; unfold insV; rw [e]; rfl

/-- **C03, C01, C24, C13.**  In a kernel built by any sensible history of calls and finished, whatever the enumeration of the
hash sets, the sort succeeds, its result contains every node once and is a valid processing order, and every node is complete
and has the shape the simulator expects: the hypotheses of the ordering, translation and simulation theorems hold for every
kernel the API can build. -/
theorem finished_kernel_is_processable {F : FloatOps} {w : World} {g : KGraph} {G : TopSort.Graph Nat}
    (h : Hist F Proper World.init w) (hf : Finished w g) (he : Enumeration w g G) :
    ∃ order, TopSort.topSort G = .ok order ∧ order.Perm g.nodes ∧ TopoOrder w.view order ∧
      (∀ n ∈ order, Complete w.view n) ∧ ∀ n ∈ order, (w.view n).Shape := by
  obtain ⟨hi, ⟨⟨R, hR⟩, -⟩, hn⟩ := wellUsed_hist (h.mono fun _ _ hp => hp.1)
  have hm : g ∈ w.stack := by rw [hf.only]; simp
  have hl : ∀ v, w.Live v ↔ v ∈ g.nodes := by intro v; unfold World.Live; rw [hf.only]; simp
  have hwf := sort_wf hi hf.only he
  have hss : G.StartsAreSources := by
    intro a b hab hb
    obtain ⟨lb, c, hc, -⟩ := (sort_edge hi hf.only he).mp hab
    have h0 := (hn b lb).source ((hi.st.starts g hm).2 b (he.starts.mem_iff.mp hb)).2
    rw [view_ins] at h0
    unfold insV at h0
    rw [List.map_eq_nil_iff] at h0
    rw [h0] at hc
    cases hc
  obtain ⟨order, ho, hp, hb⟩ := TopSort.topSort_is_topological_order G hwf (sort_acyclic hi hR hf.only he) hss
    (sort_reach hi hn hR hf (inputs_are_starts (h.mono fun _ _ hp => ⟨hp.1.clean, hp.2⟩)) he)
  have hpg : order.Perm g.nodes := hp.trans he.nodes
  have lv : ∀ n ∈ order, w.Live n := fun n hn => (hl n).mpr (hpg.mem_iff.mp hn)
  have notNone : ∀ n ∈ order, (w.view n).op ≠ .NONE := by
    intro n hno
    have := hf.check
    unfold World.check at this
    rw [List.all_eq_true] at this
    have h2 : (w.node n).op ≠ .NONE := by simpa using this n (hpg.mem_iff.mp hno)
    exact h2
  refine ⟨order, ho, hpg, ⟨hpg.nodup_iff.mpr (hi.st.nodes g hm), ?_⟩, ?_, ?_⟩
  · intro n hno s hs
    rw [srcs_eq] at hs
    simp only [List.mem_map] at hs
    obtain ⟨c, hc, rfl⟩ := hs
    have e : w.Edge (w.chan c).src n := ⟨lv n hno, c, hc, rfl⟩
    have ls := (hi.ch.inn n (lv n hno) c hc).2.2.1
    exact hb _ _ (he.nodes.mem_iff.mpr ((hl _).mp ls)) ((sort_edge hi hf.only he).mpr e)
  · intro n hno
    have ok := hn n (lv n hno)
    have len : ∀ l : List (Nat × Bool), (l.map Prod.fst).length = l.length := fun l => List.length_map _
    refine ⟨notNone n hno, fun h1 => ok.flags h1 (notNone n hno), fun h1 => ok.source (Or.inl h1), ok.const, ?_, ?_, ?_, ?_, ?_,
      ok.shift, ok.bits⟩
    · intro h1
      have hlen := hf.outputs n (hpg.mem_iff.mp hno) h1
      have hl2 : (w.view n).ins.length = 1 := by rw [← hlen]; exact List.length_map _
      obtain ⟨p, hp⟩ := List.length_eq_one_iff.mp hl2
      have hflag := ok.flagsT (Or.inl h1) p (by rw [hp]; simp)
      exact ⟨p.1, by rw [hp]; simp [Prod.ext_iff, hflag]⟩
    · intro h1
      refine ⟨(ok.mux h1).1, ?_⟩
      have := (ok.mux h1).2
      unfold NodeV.srcs
      cases hl3 : (w.view n).ins with
      | nil => rw [hl3] at this; simp at this
      | cons p l => exact ⟨p.1, l.map Prod.fst, rfl⟩
    · intro h1
      have := ok.unary h1
      rw [← len] at this
      exact List.length_eq_one_iff.mp this
    · intro h1
      have := ok.binary h1
      rw [← len] at this
      exact List.length_eq_two.mp this
    · intro h1
      exact ⟨ok.offset h1, hf.offsets n (hpg.mem_iff.mp hno) h1⟩
  · intro n hno
    have ok := hn n (lv n hno)
    refine ⟨?_, ?_, ok.comp, ?_, ok.const, ok.shift⟩
    · intro h1
      by_cases h2 : (w.view n).op = .OUT
      · have hlen := hf.outputs n (hpg.mem_iff.mp hno) h2
        have hl2 : (w.view n).ins.length = 1 := by rw [← hlen]; exact List.length_map _
        omega
      · exact Nat.le_of_eq (ok.unary (by simp only [List.mem_cons] at h1 ⊢; tauto)).symm
    · intro h1
      exact Nat.le_of_eq (ok.binary (by simp only [List.mem_cons] at h1 ⊢; tauto)).symm
    · intro h1
      exact ⟨(ok.mux h1).1, Nat.le_of_succ_le (ok.mux h1).2⟩

/-- A multiplexer of a kernel the API can build has a value to choose. -/
theorem finished_mux {F : FloatOps} {w : World} {g : KGraph} (h : Hist F Proper World.init w) (hf : Finished w g) {n : Nat} (hn : n ∈ g.nodes)
    (ho : (w.view n).op = .MUX) : 2 ≤ (w.view n).srcs.length := by
  obtain ⟨-, -, hi⟩ := wellUsed_hist (h.mono fun _ _ hp => hp.1)
  have := ((hi n ⟨g, by rw [hf.only]; simp, hn⟩).mux ho).2
  simpa [NodeV.srcs] using this

/-- **C24 for every kernel the API can build**: the kernel translates to DFCIR with the same equations. -/
theorem api_kernel_translates {F : FloatOps} {w : World} {g : KGraph} {G : TopSort.Graph Nat}
    (h : Hist F Proper World.init w) (hf : Finished w g) (he : Enumeration w g G) :
    ∃ order prog, TopSort.topSort G = .ok order ∧ order.Perm g.nodes ∧ buildBody w.view order = .ok prog ∧ SsaOK 0 prog ∧
      ∀ {α : Type} (I : Interp α) (ρ env : Nat → α), (∀ i m, order[i]? = some m → env i = ρ m) →
        (Holds I env 0 prog ↔ ∀ n ∈ g.nodes, NodeEq I w.view ρ n) := by
  obtain ⟨order, h1, h2, h3, h4, -⟩ := finished_kernel_is_processable h hf he
  obtain ⟨prog, p1, p2, p3⟩ := translation_preserves w.view order h3 h4
  refine ⟨order, prog, h1, h2, p1, p2, fun I ρ env hh => (p3 I ρ env hh).trans ?_⟩
  exact ⟨fun a n hn => a n (h2.mem_iff.mpr hn), fun a n hn => a n (h2.mem_iff.mp hn)⟩

/-- **C13 for every kernel the API can build**: a tick of the simulator that completes gives every node the value of its
expression. -/
theorem api_kernel_simulates {F : FloatOps} {w : World} {g : KGraph} {G : TopSort.Graph Nat}
    (h : Hist F Proper World.init w) (hf : Finished w g) (he : Enumeration w g G) :
    ∃ order, TopSort.topSort G = .ok order ∧ ∀ (F' : FloatOps) (inp : TickIn) (vals vals' : Vals), NoWrap F' w.view inp order →
      runSim F' w.view order vals inp = .done vals' →
      ∀ n ∈ g.nodes, ∃ v, vals' n = some v ∧ Denotes F' w.view inp n v := by
  obtain ⟨order, h1, h2, h3, -, h5⟩ := finished_kernel_is_processable h hf he
  refine ⟨order, h1, fun F' inp vals vals' hw hr n hn => ?_⟩
  exact runSim_computes_dataflow F' w.view order inp vals vals' h3 h5 hw hr n (h2.mem_iff.mpr hn)

/-! ### Unbound inputs of instances (C11) -/

/-- An input node nothing can reach any more. -/
structure Orphan (w : World) (n : Nat) : Prop where
  live : w.Live n
  op : (w.node n).op = .IN
  ins : (w.node n).ins = []
  starts : ∀ g ∈ w.stack, n ∉ g.starts
  names : ∀ g ∈ w.stack, ∀ p ∈ g.names, p.2 ≠ n

theorem BindSteps.keep_unnamed {w w' : World} {bs : List (Nat × String)} {hds : List Nat} (h : BindSteps w w' bs hds) {n : Nat}
    {S : KGraph} {rest : List KGraph} (hst : w.stack = S :: rest) (hn : n ∈ S.nodes) (hop : (w.node n).op = .IN) (hins : (w.node n).ins = [])
    (hb : ∀ b ∈ bs, S.names.lookup b.2 ≠ some n) :
    ∃ S' rest', w'.stack = S' :: rest' ∧ n ∈ S'.nodes ∧ (w'.node n).op = .IN ∧ (w'.node n).ins = [] := by
  induction h generalizing S rest with
  | nil => exact ⟨S, rest, hst, hn, hop, hins⟩
  | @cons w w1 w2 b bs hd hds st _ ih =>
    have hS : S = st.gS := by
      have := st.stack
      rw [hst] at this
      injection this
    subst hS
    have hne : n ≠ st.n := fun e => hb b (by simp) (by rw [st.look, e])
    refine ih st.stack' ?_ ((st.same.op n).trans hop) ?_ ?_
    · simp [hn, hne]
    · cases st.eff with
      | input _ _ _ _ ins => rw [ins]; exact hins
      | shallow _ _ _ _ _ _ _ _ _ ins => rw [ins]; exact hins
      | self _ _ _ _ _ _ _ _ _ ins => rw [ins]; exact hins
      | output _ _ hv hout _ _ _ _ ins =>
        rw [ins, if_neg]
        · exact hins
        · rintro rfl; rw [hop] at hout; cases hout
    · intro b' hb' e
      exact hb b' (by simp [hb']) (lookup_filter_ne e).1

theorem BindSteps.orphan {w w' : World} {bs : List (Nat × String)} {hds : List Nat} (h : BindSteps w w' bs hds) {n : Nat}
    (ho : Orphan w n) : Orphan w' n := by
  induction h with
  | nil => exact ho
  | @cons w w1 w2 b bs hd hds st _ ih =>
    apply ih
    have hSm : st.gS ∈ w.stack := by rw [st.stack]; simp
    have hKm : st.gK ∈ w.stack := by rw [st.stack]; simp
    have hne : n ≠ st.n := fun e => ho.names st.gS hSm _ (lookup_mem st.look) e.symm
    have hop : ∀ x, (w.node x).op ≠ .IN → n ≠ x := by rintro x hx rfl; exact hx ho.op
    refine ⟨?_, (st.same.op n).trans ho.op, ?_, ?_, ?_⟩
    · cases st.eff with
      | input _ _ _ live => exact (live n).mpr ⟨ho.live, hne⟩
      | shallow _ _ _ hnone _ _ _ _ live => exact (live n).mpr ⟨ho.live, hne, hop _ (by rw [hnone]; simp)⟩
      | self _ _ _ _ _ _ _ _ live => exact (live n).mpr ⟨ho.live, hne⟩
      | output _ _ _ _ _ _ _ live => exact (live n).mpr ⟨ho.live, hne⟩
    · cases st.eff with
      | input _ _ _ _ ins => rw [ins]; exact ho.ins
      | shallow _ _ _ _ _ _ _ _ _ ins => rw [ins]; exact ho.ins
      | self _ _ _ _ _ _ _ _ _ ins => rw [ins]; exact ho.ins
      | output _ _ hv hout _ _ _ _ ins =>
        rw [ins, if_neg (hop _ (by rw [hout]; simp))]; exact ho.ins
    · rw [st.stack']
      intro g hg hs
      simp only [List.mem_cons] at hg
      rcases hg with rfl | rfl | hg
      · exact ho.starts _ hSm (List.mem_filter.mp hs).1
      · exact ho.starts _ hKm (List.mem_filter.mp hs).1
      · exact ho.starts g (by rw [st.stack]; simp [hg]) hs
    · rw [st.stack']
      intro g hg p hp
      simp only [List.mem_cons] at hg
      rcases hg with rfl | rfl | hg
      · exact ho.names _ hSm p (List.mem_filter.mp hp).1
      · exact ho.names _ hKm p hp
      · exact ho.names g (by rw [st.stack]; simp [hg]) p hp

theorem orphan_transfer {w w' : World} (h : w.transfer = .ok w') {n : Nat} (hl : w.Live n) (hop : (w.node n).op = .IN)
    (hins : (w.node n).ins = []) (hs : ∀ S rest, w.stack = S :: rest → ∀ g ∈ rest, n ∉ g.starts ∧ ∀ p ∈ g.names, p.2 ≠ n) :
    Orphan w' n := by
  obtain ⟨S, K, rest, e1, e2⟩ := transfer_stack h
  obtain ⟨-, -, e3, e4⟩ := transfer_same h
  have hs := hs S _ e1
  refine ⟨(e3 n).mpr hl, (e4 n).1.trans hop, (e4 n).2.2.2.2.2.1.trans hins, ?_, ?_⟩
  · rw [e2]
    intro g hg hm
    simp only [List.mem_cons] at hg
    rcases hg with rfl | hg
    · simp only [List.mem_append, List.mem_filter, decide_eq_true_eq] at hm
      rcases hm with hm | ⟨-, hm⟩
      · exact (hs K (by simp)).1 hm
      · rw [hop] at hm; cases hm
    · exact (hs g (by simp [hg])).1 hm
  · rw [e2]
    intro g hg p hp
    simp only [List.mem_cons] at hg
    rcases hg with rfl | hg
    · exact (hs K (by simp)).2 p hp
    · exact (hs g (by simp [hg])).2 p hp

theorem orphan_addNode {w : World} (hi : Inv w) {n : Nat} (ho : Orphan w n) (k : Nat) (r : NodeRec)
    (hk : ∃ g ∈ w.stack, g.id = k) : Orphan (w.addNode k r) n := by
  have hne := Nat.ne_of_lt (live_lt hi.st ho.live)
  refine ⟨(live_addNode w k r hk n).mpr (Or.inr ho.live), by rw [addNode_node _ _ _ _ hne]; exact ho.op,
    by rw [addNode_node _ _ _ _ hne]; exact ho.ins, ?_, ?_⟩
  · intro g' hg' hs
    simp only [World.addNode, List.mem_map] at hg'
    obtain ⟨g, hg, rfl⟩ := hg'
    split at hs
    · dsimp only at hs
      split at hs
      · rcases List.mem_cons.mp hs with e | hs
        · exact hne e
        · exact ho.starts g hg hs
      · exact ho.starts g hg hs
    · exact ho.starts g hg hs
  · intro g' hg' p hp e
    simp only [World.addNode, List.mem_map] at hg'
    obtain ⟨g, hg, rfl⟩ := hg'
    split at hp
    · dsimp only at hp
      split at hp
      · exact ho.names g hg p hp e
      · rcases List.mem_cons.mp hp with hp | hp
        · subst hp; exact hne e.symm
        · exact ho.names g hg p (List.mem_filter.mp hp).1 e
    · exact ho.names g hg p hp e

theorem orphan_exec {F : FloatOps} {w w' : World} {cmd : Cmd} {rs : List Nat} (hi : Inv w) (hc : Clean w cmd) (hs : Sane w cmd)
    (h : w.exec F cmd = .ok (w', rs)) {n : Nat} (ho : Orphan w n) : Orphan w' n := by
  cases exec_shape h with
  | new op ty sc name hop e _ => subst e; exact orphan_addNode hi ho _ _ (cur_mem hi.st)
  | const ty v x hh _ _ _ =>
    obtain ⟨hk, g, -, (⟨rfl, -⟩ | ⟨-, -, rfl⟩)⟩ := createOrUseConst_ok hh
    · exact ho
    · exact orphan_addNode hi ho _ _ hk
  | op k op data ty l x hop _ hh hl =>
    obtain ⟨-, hk, en, -, -, hf, -, -, hlive⟩ := newOp_effect hi hop.isOp.1 hh (by rw [hl]; exact exec_vars h)
    have o1 := orphan_addNode hi ho k ⟨op, data, ty, .stream, "", k, [], []⟩ hk
    have hst := newOp_stack hh
    have hne := Nat.ne_of_lt (live_lt hi.st ho.live)
    refine ⟨(hlive n).mpr (Or.inr ho.live), (hf n hne).1.trans ho.op, ?_, by rw [hst]; exact o1.starts, by rw [hst]; exact o1.names⟩
    have := insV_newOp hi hop.isOp.1 hh n (Or.inl ho.live)
    rw [if_neg hne] at this
    unfold insV at this
    rw [ho.ins, List.map_nil, List.map_eq_nil_iff] at this
    exact this
  | same a e _ _ _ => subst e; exact ho
  | connect a b hh =>
    obtain ⟨e, -, -⟩ := addChannel_live hh
    subst e
    refine ⟨ho.live, (link_fields w b a 0 true n).1.trans ho.op, ?_, ho.starts, ho.names⟩
    rw [link_ins, if_neg]
    · exact ho.ins
    · rintro rfl
      rcases hs with hs | hs
      · rw [ho.op] at hs; cases hs
      · rw [ho.op] at hs; cases hs
  | begin e =>
    subst e
    refine ⟨?_, ho.op, ho.ins, ?_, ?_⟩
    · obtain ⟨g, hg, hn⟩ := ho.live
      exact ⟨g, by simp [hg], hn⟩
    · intro g hg
      rcases List.mem_cons.mp hg with rfl | hg
      · simp
      · exact ho.starts g hg
    · intro g hg
      rcases List.mem_cons.mp hg with rfl | hg
      · simp
      · exact ho.names g hg
  | inst bs S K rest hst w1 _ h1 h2 =>
    have steps := bindAll_steps bs w w1 S K rest _ hi hst (clean_lookup hst hc) h1
    have o1 := steps.orphan ho
    refine orphan_transfer h2 o1.live o1.op o1.ins fun S' rest' e g hg => ?_
    have hm : g ∈ w1.stack := by rw [e]; simp [hg]
    exact ⟨o1.starts g hm, o1.names g hm⟩

theorem cleanSane_inv {F : FloatOps} {w w' : World} (hi : Inv w) (h : Hist F CleanSane w w') : Inv w' := by
  induction h with
  | nil => exact hi
  | snoc c _ hp he ih => exact inv_exec ih hp.1 he

/-- **C11.**  If an instance is closed while one of its inputs is not bound (to which nothing was connected), then no matter what
is built afterwards, the sort of the finished kernel stops with the failed assertion, whatever the enumeration of the hash sets:
the input can never be reached. -/
theorem unbound_input_aborts {F : FloatOps} {w w1 w2 : World} {bs : List (Nat × String)} {rs : List Nat} {S : KGraph}
    {rest : List KGraph} {n : Nat} {g : KGraph} {G : TopSort.Graph Nat}
    (hw : Hist F CleanSane World.init w) (hst : w.stack = S :: rest) (hn : n ∈ S.nodes) (hop : (w.node n).op = .IN)
    (hb : ∀ b ∈ bs, ¬ w.Bound b.2 n) (hc : Clean w (.endInst bs)) (hx : w.exec F (.endInst bs) = .ok (w1, rs))
    (h2 : Hist F CleanSane w1 w2) (hg : w2.stack = [g]) (he : Enumeration w2 g G) :
    TopSort.topSort G = .assertFail := by
  have hi := cleanSane_inv inv_init hw
  have hins : (w.node n).ins = [] := by
    have key : Inv w ∧ NInv w := by
      clear hst hn hop hb hc hx
      induction hw with
      | nil =>
        refine ⟨inv_init, ?_⟩
        rintro m ⟨g, hg, hn⟩
        simp only [World.init, List.mem_singleton] at hg
        subst hg; cases hn
      | snoc c h' hp he' ih =>
        have := ih (cleanSane_inv inv_init h')
        exact ⟨inv_exec this.1 hp.1 he', ninv_exec this.1 this.2 hp.1 hp.2 he'⟩
    have := (key.2 n ⟨S, by rw [hst]; simp, hn⟩).source (Or.inl hop)
    rw [view_ins] at this
    unfold insV at this
    exact List.map_eq_nil_iff.mp this
  have i1 := inv_exec hi hc hx
  have o1 : Orphan w1 n := by
    cases exec_shape hx with
    | inst _ S' K rest' hst' wm _ h3 h4 =>
      rw [hst] at hst'
      injection hst' with e1 e2
      subst e1; subst e2
      have steps := bindAll_steps bs w wm S K rest' _ hi hst (clean_lookup hst hc) h3
      obtain ⟨Sm, restm, em, nm, om, insm⟩ := steps.keep_unnamed hst hn hop hins fun b hbb e => hb b hbb ⟨S, K :: rest', hst, e⟩
      have im := steps.inv hi
      have hSm : Sm ∈ wm.stack := by rw [em]; simp
      refine orphan_transfer h4 ⟨Sm, hSm, nm⟩ om insm fun S'' rest'' e g hg => ?_
      rw [em] at e
      injection e with e5 e6
      subst e5; subst e6
      have hgm : g ∈ wm.stack := by rw [em]; simp [hg]
      have hne : Sm ≠ g := by
        rintro rfl
        have := im.st.ids
        rw [em] at this
        simp only [List.map_cons, List.pairwise_cons, List.mem_map] at this
        exact Nat.lt_irrefl _ (this.1 Sm.id ⟨Sm, hg, rfl⟩)
      constructor
      · intro hs
        exact hne (one_kernel im.st hSm hgm nm ((im.st.starts g hgm).2 n hs).1)
      · intro p hp e
        have hpm := (im.st.names g hgm p hp).1
        rw [e] at hpm
        exact hne (one_kernel im.st hSm hgm nm hpm)
    | new o ty sc name ho e hc => simp at hc
    | const ty v n hh hs _ _ => cases hs
    | op k o data ty l n ho hcr hh hl => cases hcr
    | same x e hs hcr _ => cases hs
  have o2 : Inv w2 ∧ Orphan w2 n := by
    clear he hg
    induction h2 with
    | nil => exact ⟨i1, o1⟩
    | snoc c _ hp he ih => exact ⟨inv_exec ih.1 hp.1 he, orphan_exec ih.1 hp.1 hp.2 he ih.2⟩
  obtain ⟨i2, o2⟩ := o2
  have hgm : g ∈ w2.stack := by rw [hg]; simp
  have nmem : n ∈ g.nodes := by
    obtain ⟨g', hg', hn'⟩ := o2.live
    rw [hg, List.mem_singleton] at hg'
    exact hg' ▸ hn'
  refine (TopSort.topSort_terminates_and_decides_reachability G (sort_wf i2 hg he)).2 ⟨n, he.nodes.mem_iff.mpr nmem, ?_⟩
  intro hr
  cases hr with
  | start hs => exact o2.starts g hgm (he.starts.mem_iff.mp hs)
  | step _ e =>
    obtain ⟨-, c, hc, -⟩ := (sort_edge i2 hg he).mp e
    rw [o2.ins] at hc
    cases hc

end Verif.Dfcxx
