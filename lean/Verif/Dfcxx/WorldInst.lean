import Verif.Dfcxx.WorldInv
/-
Binding an instance: effect of one binding and preservation of the invariant.
-/
namespace Verif.Dfcxx

/-! ### deleteNode, resetName -/

theorem mem_deleteNode (w : World) (k n : Nat) (g' : KGraph) (h : g' ∈ (w.deleteNode k n).stack) :
    ∃ g ∈ w.stack, g'.id = g.id ∧ g'.names = g.names ∧
      ((g.id ≠ k ∧ g' = g) ∨ (g.id = k ∧ g'.nodes = g.nodes.filter (· ≠ n) ∧ g'.starts = g.starts.filter (· ≠ n))) := by
  unfold World.deleteNode at h
  simp only [List.mem_map] at h
  obtain ⟨g, hg, rfl⟩ := h
  refine ⟨g, hg, ?_⟩
  by_cases hk : g.id = k
  · rw [if_pos hk]; exact ⟨rfl, rfl, Or.inr ⟨hk, rfl, rfl⟩⟩
  · rw [if_neg hk]; exact ⟨rfl, rfl, Or.inl ⟨hk, rfl⟩⟩

theorem live_deleteNode {w : World} (h : StackInv w) {k n : Nat} {g : KGraph} (hg : g ∈ w.stack) (hk : g.id = k) (hn : n ∈ g.nodes)
    (m : Nat) : (w.deleteNode k n).Live m ↔ w.Live m ∧ m ≠ n := by
  constructor
  · rintro ⟨g', hg', hm⟩
    obtain ⟨g1, hg1, -, -, (⟨hne, rfl⟩ | ⟨-, e, -⟩)⟩ := mem_deleteNode w k n g' hg'
    · refine ⟨⟨g', hg1, hm⟩, ?_⟩
      rintro rfl
      have := one_kernel h hg hg1 hn hm
      exact hne (this ▸ hk)
    · rw [e] at hm
      simp only [List.mem_filter, decide_eq_true_eq] at hm
      exact ⟨⟨g1, hg1, hm.1⟩, hm.2⟩
  · rintro ⟨⟨g1, hg1, hm⟩, hne⟩
    refine ⟨_, List.mem_map.mpr ⟨g1, hg1, rfl⟩, ?_⟩
    split
    · simp [hm, hne]
    · exact hm

theorem StackInv.deleteNode {w : World} (h : StackInv w) (k n : Nat) (hnm : ∀ g ∈ w.stack, ∀ p ∈ g.names, p.2 ≠ n) :
    StackInv (w.deleteNode k n) := by
  constructor
  · obtain ⟨g, hg, h0⟩ := h.top
    refine ⟨_, List.mem_map.mpr ⟨g, hg, rfl⟩, ?_⟩
    split <;> exact h0
  · have : (w.deleteNode k n).stack.map KGraph.id = w.stack.map KGraph.id := by
      unfold World.deleteNode
      simp only [List.map_map]
      apply List.map_congr_left
      intro g _
      simp only [Function.comp]
      split <;> rfl
    rw [this]; exact h.ids
  · intro g' hg'
    obtain ⟨g, hg, e, -⟩ := mem_deleteNode w k n g' hg'
    rw [e]; exact h.idLt g hg
  · intro g' hg'
    obtain ⟨g, hg, -, -, (⟨-, rfl⟩ | ⟨-, e, -⟩)⟩ := mem_deleteNode w k n g' hg'
    · exact h.nodes g' hg
    · rw [e]; exact (h.nodes g hg).filter _
  · intro g' hg' m hm
    obtain ⟨g, hg, eid, -, (⟨-, rfl⟩ | ⟨-, e, -⟩)⟩ := mem_deleteNode w k n g' hg'
    · exact h.own g' hg m hm
    · rw [e] at hm
      rw [eid]; exact h.own g hg m (List.mem_of_mem_filter hm)
  · intro g' hg'
    obtain ⟨g, hg, -, -, (⟨-, rfl⟩ | ⟨-, e, e2⟩)⟩ := mem_deleteNode w k n g' hg'
    · exact h.starts g' hg
    · rw [e, e2]
      refine ⟨(h.starts g hg).1.filter _, fun m hm => ?_⟩
      simp only [List.mem_filter] at hm ⊢
      have := (h.starts g hg).2 m hm.1
      exact ⟨⟨this.1, hm.2⟩, this.2⟩
  · intro g' hg' p hp
    obtain ⟨g, hg, -, en, (⟨-, rfl⟩ | ⟨-, e, -⟩)⟩ := mem_deleteNode w k n g' hg'
    · exact h.names g' hg p hp
    · rw [en] at hp
      have := h.names g hg p hp
      rw [e]
      refine ⟨?_, this.2⟩
      simp only [List.mem_filter, decide_eq_true_eq]
      exact ⟨this.1, hnm g hg p hp⟩
  · exact h.const
  · intro g' hg' m hm hop
    obtain ⟨g, hg, eid, -, (⟨-, rfl⟩ | ⟨-, e, e2⟩)⟩ := mem_deleteNode w k n g' hg'
    · exact h.constTop g' hg m hm hop
    · rw [e] at hm
      simp only [List.mem_filter] at hm
      have := h.constTop g hg m hm.1 hop
      rw [e2, eid]
      exact ⟨by simp only [List.mem_filter]; exact ⟨this.1, hm.2⟩, this.2⟩

theorem mem_resetName (w : World) (k : Nat) (name : String) (n : Nat) (g' : KGraph) (h : g' ∈ (w.resetName k name n).stack) :
    ∃ g ∈ w.stack, g'.id = g.id ∧ g'.nodes = g.nodes ∧ g'.starts = g.starts ∧
      ((g.id ≠ k ∧ g'.names = g.names) ∨ (g.id = k ∧ g'.names = g.names.filter fun p => p.1 ≠ name)) := by
  unfold World.resetName at h
  simp only [List.mem_map] at h
  obtain ⟨g, hg, rfl⟩ := h
  refine ⟨g, hg, ?_⟩
  by_cases hk : g.id = k
  · rw [if_pos hk]; exact ⟨rfl, rfl, rfl, Or.inr ⟨hk, rfl⟩⟩
  · rw [if_neg hk]; exact ⟨rfl, rfl, rfl, Or.inl ⟨hk, rfl⟩⟩

theorem resetName_node (w : World) (k : Nat) (name : String) (n m : Nat) :
    (w.resetName k name n).node m = if m = n then { w.node m with name := "" } else w.node m := rfl

theorem resetName_fields (w : World) (k : Nat) (name : String) (n m : Nat) :
    ((w.resetName k name n).node m).op = (w.node m).op ∧ ((w.resetName k name n).node m).data = (w.node m).data ∧
    ((w.resetName k name n).node m).ty = (w.node m).ty ∧ ((w.resetName k name n).node m).kind = (w.node m).kind ∧
    ((w.resetName k name n).node m).kern = (w.node m).kern ∧ ((w.resetName k name n).node m).ins = (w.node m).ins ∧
    ((w.resetName k name n).node m).outs = (w.node m).outs := by
  rw [resetName_node]; split <;> exact ⟨rfl, rfl, rfl, rfl, rfl, rfl, rfl⟩

theorem live_resetName (w : World) (k : Nat) (name : String) (n m : Nat) : (w.resetName k name n).Live m ↔ w.Live m := by
  constructor
  · rintro ⟨g', hg', hm⟩
    obtain ⟨g, hg, -, e, -⟩ := mem_resetName w k name n g' hg'
    exact ⟨g, hg, e ▸ hm⟩
  · rintro ⟨g, hg, hm⟩
    refine ⟨_, List.mem_map.mpr ⟨g, hg, rfl⟩, ?_⟩
    split <;> exact hm

theorem lookup_mem {l : List (String × Nat)} {s : String} {n : Nat} (h : l.lookup s = some n) : (s, n) ∈ l := by
  induction l with
  | nil => simp at h
  | cons p ps ih =>
    obtain ⟨a, b⟩ := p
    simp only [List.lookup_cons] at h
    split at h
    · rename_i he
      have he : s = a := by simpa using he
      injection h with h
      subst he; subst h; simp
    · exact List.mem_cons_of_mem _ (ih h)

/-- After `resetName` no name refers to the node any more. -/
theorem inv_resetName {w : World} (h : Inv w) {k : Nat} {g : KGraph} {name : String} {n : Nat} (hg : g ∈ w.stack) (hk : g.id = k)
    (hl : g.names.lookup name = some n) :
    Inv (w.resetName k name n) ∧ ∀ g' ∈ (w.resetName k name n).stack, ∀ p ∈ g'.names, p.2 ≠ n := by
  have hmem := lookup_mem hl
  have hn := h.st.names g hg _ hmem
  have gone : ∀ g' ∈ (w.resetName k name n).stack, ∀ p ∈ g'.names, p.2 ≠ n := by
    intro g' hg' p hp e
    obtain ⟨g1, hg1, -, -, -, (⟨hne, en⟩ | ⟨-, en⟩)⟩ := mem_resetName w k name n g' hg'
    · rw [en] at hp
      have h1 := h.st.names g1 hg1 p hp
      rw [e] at h1
      exact hne (one_kernel h.st hg1 hg h1.1 hn.1 ▸ hk)
    · rw [en] at hp
      simp only [List.mem_filter, decide_eq_true_eq] at hp
      have h1 := h.st.names g1 hg1 p hp.1
      rw [e] at h1
      exact hp.2 (h1.2.2.symm.trans hn.2.2)
  refine ⟨⟨?_, ?_⟩, gone⟩
  · constructor
    · obtain ⟨g0, hg0, h0⟩ := h.st.top
      refine ⟨_, List.mem_map.mpr ⟨g0, hg0, rfl⟩, ?_⟩
      split <;> exact h0
    · have : (w.resetName k name n).stack.map KGraph.id = w.stack.map KGraph.id := by
        unfold World.resetName
        simp only [List.map_map]
        apply List.map_congr_left
        intro g _
        simp only [Function.comp]
        split <;> rfl
      rw [this]; exact h.st.ids
    · intro g' hg'
      obtain ⟨g1, hg1, e, -⟩ := mem_resetName w k name n g' hg'
      rw [e]; exact h.st.idLt g1 hg1
    · intro g' hg'
      obtain ⟨g1, hg1, -, e, -⟩ := mem_resetName w k name n g' hg'
      rw [e]; exact h.st.nodes g1 hg1
    · intro g' hg' m hm
      obtain ⟨g1, hg1, eid, e, -⟩ := mem_resetName w k name n g' hg'
      rw [e] at hm
      rw [eid, (resetName_fields w k name n m).2.2.2.2.1]; exact h.st.own g1 hg1 m hm
    · intro g' hg'
      obtain ⟨g1, hg1, -, e, e2, -⟩ := mem_resetName w k name n g' hg'
      rw [e, e2]
      refine ⟨(h.st.starts g1 hg1).1, fun m hm => ?_⟩
      rw [(resetName_fields w k name n m).1]; exact (h.st.starts g1 hg1).2 m hm
    · intro g' hg' p hp
      have hne := gone g' hg' p hp
      obtain ⟨g1, hg1, -, e, -, hh⟩ := mem_resetName w k name n g' hg'
      have hp1 : p ∈ g1.names := by
        rcases hh with ⟨-, en⟩ | ⟨-, en⟩
        · rw [en] at hp; exact hp
        · rw [en] at hp; exact List.mem_of_mem_filter hp
      rw [resetName_node, if_neg hne, e]
      exact h.st.names g1 hg1 p hp1
    · intro m hm
      rw [(resetName_fields w k name n m).1, (resetName_fields w k name n m).2.2.2.1]
      exact h.st.const m hm
    · intro g' hg' m hm hop
      obtain ⟨g1, hg1, eid, e, e2, -⟩ := mem_resetName w k name n g' hg'
      rw [e] at hm
      rw [(resetName_fields w k name n m).1] at hop
      rw [e2, eid]; exact h.st.constTop g1 hg1 m hm hop
  · refine h.ch.congr (fun m => live_resetName w k name n m) fun m _ => ?_
    exact ⟨(resetName_fields w k name n m).2.2.2.2.2.1, (resetName_fields w k name n m).2.2.2.2.2.2⟩

/-! ### The effect of one binding -/

/-- What stays the same in all cases. -/
structure SameFields (w w' : World) (n : Nat) : Prop where
  next : w'.next = w.next
  nextC : w'.nextC = w.nextC
  nextK : w'.nextK = w.nextK
  op : ∀ m, (w'.node m).op = (w.node m).op
  data : ∀ m, (w'.node m).data = (w.node m).data
  ty : ∀ m, (w'.node m).ty = (w.node m).ty
  kind : ∀ m, (w'.node m).kind = (w.node m).kind
  kern : ∀ m, (w'.node m).kern = (w.node m).kern
  name : ∀ m, m ≠ n → (w'.node m).name = (w.node m).name
  connect : ∀ c, (w'.chan c).connect = (w.chan c).connect

/-- The four things a binding `(v, name)` of node `n` can do; `hd` is what the handle refers to afterwards. -/
inductive BindEffect (w w' : World) (gK : KGraph) (v n hd : Nat) : Prop
  | input (hop : (w.node n).op = .IN) (hv : v ∈ gK.nodes ∨ (w.node n).outs = []) (hh : hd = v)
      (live : ∀ m, w'.Live m ↔ w.Live m ∧ m ≠ n)
      (ins : ∀ m, (w'.node m).ins = (w.node m).ins)
      (outs : ∀ m, (w'.node m).outs = (w.node m).outs ∨ (m = v ∧ v ∈ gK.nodes))
      (src : ∀ c, (w'.chan c).src = if c ∈ (w.node n).outs then v else (w.chan c).src)
  | shallow (c : Nat) (hop : (w.node n).op = .OUT) (hv : v ∈ gK.nodes) (hnone : (w.node v).op = .NONE) (hvi : (w.node v).ins = [])
      (hin : (w.node n).ins = [c]) (hne : (w.chan c).src ≠ v) (hh : hd = (w.chan c).src)
      (live : ∀ m, w'.Live m ↔ w.Live m ∧ m ≠ n ∧ m ≠ v)
      (ins : ∀ m, (w'.node m).ins = (w.node m).ins)
      (outs : ∀ m, (w'.node m).outs = (w.node m).outs ∨ c ∈ (w.node m).outs)
      (src : ∀ d, (w'.chan d).src = if d ∈ (w.node v).outs then (w.chan c).src else (w.chan d).src)
  | self (c : Nat) (hop : (w.node n).op = .OUT) (hv : v ∈ gK.nodes) (hnone : (w.node v).op = .NONE) (hvi : (w.node v).ins = [])
      (hin : (w.node n).ins = [c]) (he : (w.chan c).src = v) (hh : hd = v)
      (live : ∀ m, w'.Live m ↔ w.Live m ∧ m ≠ n)
      (ins : ∀ m, (w'.node m).ins = (w.node m).ins)
      (outs : ∀ m, (w'.node m).outs = (w.node m).outs ∨ c ∈ (w.node m).outs)
      (src : ∀ d, (w'.chan d).src = (w.chan d).src)
  | output (c : Nat) (hop : (w.node n).op = .OUT) (hv : v ∈ gK.nodes) (hout : (w.node v).op = .OUT) (hvi : (w.node v).ins = [])
      (hin : (w.node n).ins = [c]) (hh : hd = v)
      (live : ∀ m, w'.Live m ↔ w.Live m ∧ m ≠ n)
      (ins : ∀ m, (w'.node m).ins = if m = v then [c] else (w.node m).ins)
      (outs : ∀ m, (w'.node m).outs = (w.node m).outs)
      (src : ∀ d, (w'.chan d).src = (w.chan d).src)

theorem bind_ok {ε α β : Type} {x : Except ε α} {f : α → Except ε β} {b : β} (h : (x >>= f) = .ok b) :
    ∃ a, x = .ok a ∧ f a = .ok b := by
  cases x with
  | error e => cases h
  | ok a => exact ⟨a, rfl, h⟩

theorem inv_bindOne {w w' : World} {K S hd : Nat} {b : Nat × String} {gK gS : KGraph} (hi : Inv w) (hKS : K ≠ S)
    (hK : w.kernel K = some gK) (hS : w.kernel S = some gS)
    (hclean : ∀ n, gS.names.lookup b.2 = some n → ((w.node n).op = .IN → (w.node n).ins = []) ∧ ((w.node n).op ≠ .IN → (w.node n).outs = []))
    (h : w.bindOne K S b = .ok (w', hd)) :
    Inv w' ∧ ∃ n, gS.names.lookup b.2 = some n ∧ n ∈ gS.nodes ∧ SameFields w w' n ∧ BindEffect w w' gK b.1 n hd := by
  unfold World.bindOne at h
  rw [hS] at h
  dsimp only at h
  split at h
  · cases h
  rename_i n hl
  obtain ⟨hgK, idK⟩ := kernel_some hK
  obtain ⟨hgS, idS⟩ := kernel_some hS
  have hnm := hi.st.names gS hgS _ (lookup_mem hl)
  have hnS : n ∈ gS.nodes := hnm.1
  obtain ⟨hcin, hcout⟩ := hclean n hl
  obtain ⟨hi0, hgone⟩ := inv_resetName hi hgS idS hl
  have f0 := fun m => resetName_fields w S b.2 n m
  have l0 := fun m => live_resetName w S b.2 n m
  have hc0 : (w.resetName S b.2 n).chan = w.chan := rfl
  have hx0 : (w.resetName S b.2 n).next = w.next ∧ (w.resetName S b.2 n).nextC = w.nextC ∧
    (w.resetName S b.2 n).nextK = w.nextK := ⟨rfl, rfl, rfl⟩
  have nm0 : ∀ m, m ≠ n → ((w.resetName S b.2 n).node m).name = (w.node m).name := by
    intro m hm; rw [resetName_node, if_neg hm]
  -- kernels K and S after resetName
  have hS0 : ∃ g ∈ (w.resetName S b.2 n).stack, g.id = S ∧ g.nodes = gS.nodes := by
    refine ⟨_, List.mem_map.mpr ⟨gS, hgS, rfl⟩, ?_⟩
    split <;> exact ⟨idS, rfl⟩
  have hK0 : (w.resetName S b.2 n).kernel K = some gK := by
    have : gK ∈ (w.resetName S b.2 n).stack := by
      refine List.mem_map.mpr ⟨gK, hgK, ?_⟩
      rw [if_neg (by rw [idK]; exact hKS)]
    have := kernel_eq hi0.st this
    rwa [idK] at this
  obtain ⟨gS0, hgS0, idS0, nS0⟩ := hS0
  have hgK0 := (kernel_some hK0).1
  generalize w.resetName S b.2 n = w0 at *
  have hnlive : w0.Live n := (l0 n).mpr ⟨gS, hgS, hnS⟩
  have hnS0 : n ∈ gS0.nodes := nS0 ▸ hnS
  have notK : ∀ v, v ∈ gK.nodes → v ≠ n := by
    rintro v hv rfl
    have := one_kernel hi.st hgK hgS hv hnS
    exact hKS (by rw [← idK, ← idS, this])
  by_cases hop : (w.node n).op = .IN
  · -- input
    have hop0 : (w0.node n).op = .IN := by rw [(f0 n).1]; exact hop
    rw [if_pos hop0] at h
    obtain ⟨w1, h1, h2⟩ := bind_ok h
    injection h2 with h2
    injection h2 with h2 h3
    subst h2
    unfold World.rebindInput at h1
    rw [hK0] at h1
    dsimp only at h1
    have hin0 : (w0.node n).ins = [] := by rw [(f0 n).2.2.2.2.2.1]; exact hcin hop
    split at h1
    · rename_i hv
      injection h1 with h1
      have hvl : w0.Live b.1 := ⟨gK, hgK0, hv⟩
      have hst : StackInv (w0.resource (w0.node n).outs b.1) := by
        refine StackInv.congr (w' := w0.resource (w0.node n).outs b.1) hi0.st rfl rfl rfl ?_
        intro m; unfold World.resource; dsimp only; split <;> exact ⟨rfl, rfl, rfl, rfl⟩
      have hch := hi0.ch.move (node' := (w0.resource (w0.node n).outs b.1).node) (chan' := (w0.resource (w0.node n).outs b.1).chan)
        hvl hnlive (notK _ hv) hin0 (fun c => rfl)
        (by intro m; unfold World.resource; dsimp only; split <;> rfl)
        (by
          intro m hm; unfold World.resource; dsimp only
          split
          · rfl
          · rfl)
      have hlive : ∀ m, ((w0.resource (w0.node n).outs b.1).deleteNode S n).Live m ↔ w0.Live m ∧ m ≠ n :=
        fun m => live_deleteNode hst hgS0 idS0 hnS0 m
      subst h1
      refine ⟨⟨hst.deleteNode S n hgone, ?_⟩, n, hl, hnS, ?_, ?_⟩
      · exact hch.congr hlive (fun m _ => ⟨rfl, rfl⟩)
      · have hf : ∀ m, ((w0.resource (w0.node n).outs b.1).node m).op = (w0.node m).op ∧
            ((w0.resource (w0.node n).outs b.1).node m).data = (w0.node m).data ∧
            ((w0.resource (w0.node n).outs b.1).node m).ty = (w0.node m).ty ∧
            ((w0.resource (w0.node n).outs b.1).node m).kind = (w0.node m).kind ∧
            ((w0.resource (w0.node n).outs b.1).node m).kern = (w0.node m).kern ∧
            ((w0.resource (w0.node n).outs b.1).node m).name = (w0.node m).name := by
          intro m; unfold World.resource; dsimp only; split <;> exact ⟨rfl, rfl, rfl, rfl, rfl, rfl⟩
        refine ⟨hx0.1, hx0.2.1, hx0.2.2, fun m => (hf m).1.trans (f0 m).1, fun m => (hf m).2.1.trans (f0 m).2.1,
          fun m => (hf m).2.2.1.trans (f0 m).2.2.1, fun m => (hf m).2.2.2.1.trans (f0 m).2.2.2.1,
          fun m => (hf m).2.2.2.2.1.trans (f0 m).2.2.2.2.1, fun m hm => (hf m).2.2.2.2.2.trans (nm0 m hm), ?_⟩
        intro c
        have : ((w0.resource (w0.node n).outs b.1).chan c).connect = (w0.chan c).connect := by
          unfold World.resource; dsimp only; split <;> rfl
        exact this.trans (by rw [hc0])
      · refine .input hop (Or.inl hv) h3.symm (fun m => (hlive m).trans (by rw [l0])) ?_ ?_ ?_
        · intro m
          have : ((w0.resource (w0.node n).outs b.1).node m).ins = (w0.node m).ins := by
            unfold World.resource; dsimp only; split <;> rfl
          exact this.trans (f0 m).2.2.2.2.2.1
        · intro m
          by_cases hmv : m = b.1
          · exact Or.inr ⟨hmv, hv⟩
          · left
            have : ((w0.resource (w0.node n).outs b.1).node m).outs = (w0.node m).outs := by
              unfold World.resource; dsimp only; rw [if_neg hmv]
            exact this.trans (f0 m).2.2.2.2.2.2
        · intro c
          show ((w0.resource (w0.node n).outs b.1).chan c).src = _
          unfold World.resource; dsimp only
          rw [(f0 n).2.2.2.2.2.2, hc0]
          split <;> rfl
    · rename_i hv
      split at h1
      · rename_i hout
        injection h1 with h1
        subst h1
        have hlive : ∀ m, (w0.deleteNode S n).Live m ↔ w0.Live m ∧ m ≠ n := fun m => live_deleteNode hi0.st hgS0 idS0 hnS0 m
        have hout' : (w.node n).outs = [] := by rw [← (f0 n).2.2.2.2.2.2]; exact hout
        refine ⟨⟨hi0.st.deleteNode S n hgone, ?_⟩, n, hl, hnS, ?_, ?_⟩
        · constructor
          · intro m lm c hc
            have lm' := (hlive m).mp lm
            obtain ⟨a1, a2, a3, a4⟩ := hi0.ch.out m lm'.1 c hc
            refine ⟨a1, a2, (hlive _).mpr ⟨a3, ?_⟩, a4⟩
            intro e
            have e : (w0.chan c).tgt = n := e
            rw [e, hin0] at a4; cases a4
          · intro m lm c hc
            have lm' := (hlive m).mp lm
            obtain ⟨a1, a2, a3, a4⟩ := hi0.ch.inn m lm'.1 c hc
            refine ⟨a1, a2, (hlive _).mpr ⟨a3, ?_⟩, a4⟩
            intro e
            have e : (w0.chan c).src = n := e
            rw [e, hout] at a4; cases a4
          · intro m lm; exact hi0.ch.outNd m ((hlive m).mp lm).1
          · intro m lm; exact hi0.ch.inNd m ((hlive m).mp lm).1
        · exact ⟨hx0.1, hx0.2.1, hx0.2.2, fun m => (f0 m).1, fun m => (f0 m).2.1, fun m => (f0 m).2.2.1, fun m => (f0 m).2.2.2.1,
            fun m => (f0 m).2.2.2.2.1, nm0, fun c => by show (w0.chan c).connect = _; rw [hc0]⟩
        · refine .input hop (Or.inr hout') h3.symm (fun m => (hlive m).trans (by rw [l0])) ?_ ?_ ?_
          · intro m; exact (f0 m).2.2.2.2.2.1
          · intro m; exact Or.inl (f0 m).2.2.2.2.2.2
          · intro c; rw [hout']; simp only [List.not_mem_nil, if_false]; show (w0.chan c).src = _; rw [hc0]
      · cases h1
  · -- output
    have hopO : (w.node n).op = .OUT := by
      rcases hnm.2.1 with e | e
      · exact absurd e hop
      · exact e
    have hop0 : ¬ (w0.node n).op = .IN := by rw [(f0 n).1]; exact hop
    rw [if_neg hop0] at h
    have hout0 : (w0.node n).outs = [] := by rw [(f0 n).2.2.2.2.2.2]; exact hcout hop
    unfold World.rebindOutput at h
    rw [hK0] at h
    dsimp only at h
    split at h
    · cases h
    rename_i hv
    have hv : b.1 ∈ gK.nodes := by simpa using hv
    have hvn : b.1 ≠ n := notK _ hv
    have hvl : w0.Live b.1 := ⟨gK, hgK0, hv⟩
    split at h
    · cases h
    rename_i hvi
    have hvi : (w0.node b.1).ins = [] := by simpa using hvi
    split at h
    case h_2 => cases h
    rename_i c hin
    have hcn := hi0.ch.inn n hnlive c (by rw [hin]; simp)
    split at h
    · rename_i hnone
      split at h
      · cases h
      rename_i hcmem
      -- removal of the connection
      generalize hw1 : w0.unlinkOut (w0.chan c).src c = w1 at h
      have f1 : ∀ m, (w1.node m).op = (w0.node m).op ∧ (w1.node m).data = (w0.node m).data ∧ (w1.node m).ty = (w0.node m).ty ∧
          (w1.node m).kind = (w0.node m).kind ∧ (w1.node m).kern = (w0.node m).kern ∧ (w1.node m).name = (w0.node m).name ∧
          (w1.node m).ins = (w0.node m).ins := by
        intro m; rw [← hw1]; unfold World.unlinkOut; dsimp only; split <;> exact ⟨rfl, rfl, rfl, rfl, rfl, rfl, rfl⟩
      have o1 : ∀ m, (w1.node m).outs = if m = (w0.chan c).src then (w0.node m).outs.erase c else (w0.node m).outs := by
        intro m; rw [← hw1]; unfold World.unlinkOut; dsimp only; split <;> rfl
      have c1 : w1.chan = w0.chan := by rw [← hw1]; rfl
      have s1 : w1.stack = w0.stack := by rw [← hw1]; rfl
      have n1 : w1.next = w0.next ∧ w1.nextC = w0.nextC ∧ w1.nextK = w0.nextK := by rw [← hw1]; exact ⟨rfl, rfl, rfl⟩
      have st1 : StackInv w1 := StackInv.congr (w' := w1) hi0.st s1 n1.1 n1.2.2
        (fun m => ⟨(f1 m).1, (f1 m).2.2.2.1, (f1 m).2.2.2.2.1, (f1 m).2.2.2.2.2.1⟩)
      have l1 : ∀ m, w1.Live m ↔ w0.Live m := by intro m; unfold World.Live; rw [s1]
      have ch1 : ChanInv (fun m => w0.Live m ∧ m ≠ n) w1.node w1.chan w1.nextC := by
        rw [c1, n1.2.1]
        exact hi0.ch.drop hnlive hin hout0 (fun m => (f1 m).2.2.2.2.2.2) o1
      split at h
      · -- self
        rename_i hself
        split at h
        · cases h
        injection h with h
        injection h with h1 h3
        subst h1
        have hlive : ∀ m, (w1.deleteNode S n).Live m ↔ w0.Live m ∧ m ≠ n := fun m => by
          rw [live_deleteNode st1 (s1 ▸ hgS0) idS0 hnS0, l1]
        refine ⟨⟨st1.deleteNode S n (by rw [s1]; exact hgone), ch1.congr hlive fun _ _ => ⟨rfl, rfl⟩⟩, n, hl, hnS, ?_, ?_⟩
        · exact ⟨n1.1.trans hx0.1, n1.2.1.trans hx0.2.1, n1.2.2.trans hx0.2.2, fun m => (f1 m).1.trans (f0 m).1,
            fun m => (f1 m).2.1.trans (f0 m).2.1, fun m => (f1 m).2.2.1.trans (f0 m).2.2.1,
            fun m => (f1 m).2.2.2.1.trans (f0 m).2.2.2.1, fun m => (f1 m).2.2.2.2.1.trans (f0 m).2.2.2.2.1,
            fun m hm => (f1 m).2.2.2.2.2.1.trans (nm0 m hm), fun d => by show (w1.chan d).connect = _; rw [c1, hc0]⟩
        · refine .self c hopO hv ((f0 _).1.symm.trans hnone) ((f0 _).2.2.2.2.2.1.symm.trans hvi) ((f0 _).2.2.2.2.2.1.symm.trans hin)
            (by rw [← hc0]; exact hself) h3.symm (fun m => (hlive m).trans (by rw [l0]))
            (fun m => (f1 m).2.2.2.2.2.2.trans (f0 m).2.2.2.2.2.1) ?_ (fun d => by show (w1.chan d).src = _; rw [c1, hc0])
          intro m
          show (w1.node m).outs = _ ∨ _
          rw [o1]
          by_cases hm : m = (w0.chan c).src
          · right; rw [← (f0 m).2.2.2.2.2.2, hm]; exact hcn.2.2.2
          · left; rw [if_neg hm]; exact (f0 m).2.2.2.2.2.2
      · -- shallow
        rename_i hself
        injection h with h
        injection h with h1 h3
        subst h1
        have hvl1 : w0.Live b.1 ∧ b.1 ≠ n := ⟨hvl, hvn⟩
        have hsl1 : w0.Live (w0.chan c).src ∧ (w0.chan c).src ≠ n := by
          refine ⟨hcn.2.2.1, ?_⟩
          intro e
          have := hcn.2.2.2
          rw [e, hout0] at this; cases this
        generalize hw2 : w1.resource (w1.node b.1).outs (w0.chan c).src = w2
        have f2 : ∀ m, (w2.node m).op = (w1.node m).op ∧ (w2.node m).data = (w1.node m).data ∧ (w2.node m).ty = (w1.node m).ty ∧
            (w2.node m).kind = (w1.node m).kind ∧ (w2.node m).kern = (w1.node m).kern ∧ (w2.node m).name = (w1.node m).name ∧
            (w2.node m).ins = (w1.node m).ins := by
          intro m; rw [← hw2]; unfold World.resource; dsimp only; split <;> exact ⟨rfl, rfl, rfl, rfl, rfl, rfl, rfl⟩
        have o2 : ∀ m, (w2.node m).outs = if m = (w0.chan c).src then (w1.node m).outs ++ (w1.node b.1).outs else (w1.node m).outs := by
          intro m; rw [← hw2]; unfold World.resource; dsimp only; split <;> rfl
        have c2 : ∀ d, w2.chan d = if d ∈ (w1.node b.1).outs then { w1.chan d with src := (w0.chan c).src } else w1.chan d := by
          intro d; rw [← hw2]; rfl
        have s2 : w2.stack = w1.stack := by rw [← hw2]; rfl
        have n2 : w2.next = w1.next ∧ w2.nextC = w1.nextC ∧ w2.nextK = w1.nextK := by rw [← hw2]; exact ⟨rfl, rfl, rfl⟩
        have st2 : StackInv w2 := StackInv.congr (w' := w2) st1 s2 n2.1 n2.2.2
          (fun m => ⟨(f2 m).1, (f2 m).2.2.2.1, (f2 m).2.2.2.2.1, (f2 m).2.2.2.2.2.1⟩)
        have ch2 : ChanInv (fun m => (w0.Live m ∧ m ≠ n) ∧ m ≠ b.1) w2.node w2.chan w2.nextC := by
          rw [n2.2.1]
          refine ch1.move (s := (w0.chan c).src) (x := b.1) hsl1 hvl1 hself ?_ c2 (fun m => (f2 m).2.2.2.2.2.2) (fun m _ => o2 m)
          rw [(f1 _).2.2.2.2.2.2]; exact hvi
        have hvnm : ∀ g ∈ w2.stack, ∀ p ∈ g.names, p.2 ≠ b.1 := by
          intro g hg p hp e
          have := (st2.names g hg p hp).2.1
          rw [e, (f2 _).1, (f1 _).1, hnone] at this
          simp at this
        have st3 := st2.deleteNode K b.1 hvnm
        have hl3 : ∀ m, (w2.deleteNode K b.1).Live m ↔ w0.Live m ∧ m ≠ b.1 := fun m => by
          rw [live_deleteNode st2 (g := gK) (by rw [s2, s1]; exact hgK0) idK hv]
          unfold World.Live
          rw [s2, s1]
        have hgS3 : ∃ g ∈ (w2.deleteNode K b.1).stack, g.id = S ∧ n ∈ g.nodes := by
          refine ⟨_, List.mem_map.mpr ⟨gS0, by rw [s2, s1]; exact hgS0, rfl⟩, ?_⟩
          rw [if_neg (by rw [idS0]; exact fun e => hKS e.symm)]
          exact ⟨idS0, hnS0⟩
        obtain ⟨g3, hg3, id3, hn3⟩ := hgS3
        have hlive : ∀ m, ((w2.deleteNode K b.1).deleteNode S n).Live m ↔ w0.Live m ∧ m ≠ n ∧ m ≠ b.1 := fun m => by
          rw [live_deleteNode st3 hg3 id3 hn3, hl3]; tauto
        have hgone3 : ∀ g ∈ (w2.deleteNode K b.1).stack, ∀ p ∈ g.names, p.2 ≠ n := by
          intro g hg p hp
          obtain ⟨g1, hg1, -, en, -⟩ := mem_deleteNode w2 K b.1 g hg
          rw [s2, s1] at hg1
          exact hgone g1 hg1 p (en ▸ hp)
        refine ⟨⟨st3.deleteNode S n hgone3, ch2.congr (fun m => (hlive m).trans (by tauto)) fun _ _ => ⟨rfl, rfl⟩⟩, n, hl, hnS, ?_, ?_⟩
        · refine ⟨n2.1.trans (n1.1.trans hx0.1), n2.2.1.trans (n1.2.1.trans hx0.2.1), n2.2.2.trans (n1.2.2.trans hx0.2.2),
            fun m => (f2 m).1.trans ((f1 m).1.trans (f0 m).1), fun m => (f2 m).2.1.trans ((f1 m).2.1.trans (f0 m).2.1),
            fun m => (f2 m).2.2.1.trans ((f1 m).2.2.1.trans (f0 m).2.2.1),
            fun m => (f2 m).2.2.2.1.trans ((f1 m).2.2.2.1.trans (f0 m).2.2.2.1),
            fun m => (f2 m).2.2.2.2.1.trans ((f1 m).2.2.2.2.1.trans (f0 m).2.2.2.2.1),
            fun m hm => (f2 m).2.2.2.2.2.1.trans ((f1 m).2.2.2.2.2.1.trans (nm0 m hm)), fun d => ?_⟩
          show (w2.chan d).connect = _
          rw [c2, c1, hc0]; split <;> rfl
        · have ob : (w1.node b.1).outs = (w0.node b.1).outs := by rw [o1, if_neg (fun e => hself e.symm)]
          refine .shallow c hopO hv ((f0 _).1.symm.trans hnone) ((f0 _).2.2.2.2.2.1.symm.trans hvi) ((f0 _).2.2.2.2.2.1.symm.trans hin)
            (by rw [← hc0]; exact hself) (by rw [← hc0]; exact h3.symm) (fun m => (hlive m).trans (by rw [l0]))
            (fun m => (f2 m).2.2.2.2.2.2.trans ((f1 m).2.2.2.2.2.2.trans (f0 m).2.2.2.2.2.1)) ?_ ?_
          · intro m
            show (w2.node m).outs = _ ∨ _
            rw [o2, o1]
            by_cases hm : m = (w0.chan c).src
            · right; rw [← (f0 m).2.2.2.2.2.2, hm]; exact hcn.2.2.2
            · left; rw [if_neg hm, if_neg hm]; exact (f0 m).2.2.2.2.2.2
          · intro d
            show (w2.chan d).src = _
            rw [c2, ob, (f0 _).2.2.2.2.2.2, c1, hc0]
            split <;> rfl
    · rename_i hnone
      split at h
      · -- output
        rename_i hvo
        injection h with h
        injection h with h1 h3
        subst h1
        generalize hw1 : w0.retarget c b.1 = w1
        have f1 : ∀ m, (w1.node m).op = (w0.node m).op ∧ (w1.node m).data = (w0.node m).data ∧ (w1.node m).ty = (w0.node m).ty ∧
            (w1.node m).kind = (w0.node m).kind ∧ (w1.node m).kern = (w0.node m).kern ∧ (w1.node m).name = (w0.node m).name ∧
            (w1.node m).outs = (w0.node m).outs := by
          intro m; rw [← hw1]; unfold World.retarget; dsimp only; split <;> exact ⟨rfl, rfl, rfl, rfl, rfl, rfl, rfl⟩
        have i1 : ∀ m, (w1.node m).ins = if m = b.1 then (w0.node m).ins ++ [c] else (w0.node m).ins := by
          intro m; rw [← hw1]; unfold World.retarget; dsimp only; split <;> rfl
        have c1 : ∀ d, w1.chan d = if d = c then { w0.chan d with tgt := b.1 } else w0.chan d := by intro d; rw [← hw1]; rfl
        have s1 : w1.stack = w0.stack := by rw [← hw1]; rfl
        have n1 : w1.next = w0.next ∧ w1.nextC = w0.nextC ∧ w1.nextK = w0.nextK := by rw [← hw1]; exact ⟨rfl, rfl, rfl⟩
        have st1 : StackInv w1 := StackInv.congr (w' := w1) hi0.st s1 n1.1 n1.2.2
          (fun m => ⟨(f1 m).1, (f1 m).2.2.2.1, (f1 m).2.2.2.2.1, (f1 m).2.2.2.2.2.1⟩)
        have ch1 : ChanInv (fun m => w0.Live m ∧ m ≠ n) w1.node w1.chan w1.nextC := by
          rw [n1.2.1]
          exact hi0.ch.redirect hnlive hvl hvn hin hout0 hvi c1 i1 (fun m => (f1 m).2.2.2.2.2.2)
        have hlive : ∀ m, (w1.deleteNode S n).Live m ↔ w0.Live m ∧ m ≠ n := fun m => by
          rw [live_deleteNode st1 (s1 ▸ hgS0) idS0 hnS0]; unfold World.Live; rw [s1]
        refine ⟨⟨st1.deleteNode S n (by rw [s1]; exact hgone), ch1.congr hlive fun _ _ => ⟨rfl, rfl⟩⟩, n, hl, hnS, ?_, ?_⟩
        · refine ⟨n1.1.trans hx0.1, n1.2.1.trans hx0.2.1, n1.2.2.trans hx0.2.2, fun m => (f1 m).1.trans (f0 m).1,
            fun m => (f1 m).2.1.trans (f0 m).2.1, fun m => (f1 m).2.2.1.trans (f0 m).2.2.1,
            fun m => (f1 m).2.2.2.1.trans (f0 m).2.2.2.1, fun m => (f1 m).2.2.2.2.1.trans (f0 m).2.2.2.2.1,
            fun m hm => (f1 m).2.2.2.2.2.1.trans (nm0 m hm), fun d => ?_⟩
          show (w1.chan d).connect = _
          rw [c1, hc0]; split <;> rfl
        · refine .output c hopO hv ((f0 _).1.symm.trans hvo) ((f0 _).2.2.2.2.2.1.symm.trans hvi) ((f0 _).2.2.2.2.2.1.symm.trans hin)
            h3.symm (fun m => (hlive m).trans (by rw [l0])) ?_ (fun m => (f1 m).2.2.2.2.2.2.trans (f0 m).2.2.2.2.2.2) ?_
          · intro m
            show (w1.node m).ins = _
            rw [i1]
            split
            · rename_i e; rw [e, hvi]; rfl
            · exact (f0 m).2.2.2.2.2.1
          · intro d
            show (w1.chan d).src = _
            rw [c1, hc0]; split <;> rfl
      · cases h

/-! ### Kernels -/

/-- What a binding does to the kernels. -/
def trim (K S : Nat) (name : String) (n : Nat) (D : List Nat) (g : KGraph) : KGraph :=
  if g.id = S then ⟨g.id, g.nodes.filter (· ≠ n), g.starts.filter (· ≠ n), g.names.filter fun p => p.1 ≠ name⟩
  else if g.id = K then ⟨g.id, g.nodes.filter (· ∉ D), g.starts.filter (· ∉ D), g.names⟩ else g

theorem filter_not_mem_nil (l : List Nat) : l.filter (fun x => decide (x ∉ ([] : List Nat))) = l := by simp

theorem bindOne_stack {w w' : World} {K S hd : Nat} {b : Nat × String} {gS : KGraph} (hKS : K ≠ S) (hS : w.kernel S = some gS)
    (h : w.bindOne K S b = .ok (w', hd)) :
    ∃ n D, gS.names.lookup b.2 = some n ∧ (∀ d ∈ D, d = b.1) ∧ w'.stack = w.stack.map (trim K S b.2 n D) := by
  have trimS : ∀ (w : World) (n : Nat), ((w.resetName S b.2 n).deleteNode S n).stack = w.stack.map (trim K S b.2 n []) := by
    intro w n
    unfold World.resetName World.deleteNode
    simp only [List.map_map]
    apply List.map_congr_left
    intro g _
    unfold trim
    simp only [Function.comp]
    by_cases h1 : g.id = S
    · simp [h1]
    · by_cases h2 : g.id = K
      · rw [if_neg h1, if_neg h1, if_neg h1, if_pos h2, filter_not_mem_nil, filter_not_mem_nil]
      · rw [if_neg h1, if_neg h1, if_neg h1, if_neg h2]
  unfold World.bindOne at h
  rw [hS] at h
  dsimp only at h
  split at h
  · cases h
  rename_i n hl
  have e0 := trimS w n
  have e1 : (((w.resetName S b.2 n).deleteNode K b.1).deleteNode S n).stack = w.stack.map (trim K S b.2 n [b.1]) := by
    unfold World.resetName World.deleteNode
    simp only [List.map_map]
    apply List.map_congr_left
    intro g _
    unfold trim
    simp only [Function.comp]
    by_cases h1 : g.id = S
    · have h3 : ¬ S = K := fun e => hKS e.symm
      simp [h1, h3]
    · by_cases h2 : g.id = K <;> simp [h1, h2, hKS]
  generalize w.resetName S b.2 n = w0 at *
  split at h
  · obtain ⟨w1, h1, h2⟩ := bind_ok h
    injection h2 with h2
    injection h2 with h2 h3
    subst h2
    refine ⟨n, [], hl, by simp, ?_⟩
    rw [← e0]
    unfold World.rebindInput at h1
    split at h1
    · cases h1
    split at h1
    · injection h1 with h1; rw [← h1]; rfl
    · split at h1
      · injection h1 with h1; rw [← h1]
      · cases h1
  · unfold World.rebindOutput at h
    split at h
    · cases h
    dsimp only at h
    split at h
    · cases h
    split at h
    · cases h
    split at h
    · split at h
      · split at h
        · cases h
        · split at h
          · split at h
            · cases h
            · injection h with h
              injection h with h _
              exact ⟨n, [], hl, by simp, by rw [← e0, ← h]; rfl⟩
          · injection h with h
            injection h with h _
            exact ⟨n, [b.1], hl, by simp, by rw [← e1, ← h]; rfl⟩
      · split at h
        · injection h with h
          injection h with h _
          exact ⟨n, [], hl, by simp, by rw [← e0, ← h]; rfl⟩
        · cases h
    · cases h

end Verif.Dfcxx
