import Verif.Dfcxx.WorldInst
/-
The invariant over histories (C03).
-/
namespace Verif.Dfcxx

/-- One binding, with everything the later proofs use. -/
structure BindStep (w w' : World) (b : Nat × String) (hd : Nat) where
  gS : KGraph
  gK : KGraph
  rest : List KGraph
  n : Nat
  D : List Nat
  stack : w.stack = gS :: gK :: rest
  stack' : w'.stack = ⟨gS.id, gS.nodes.filter (· ≠ n), gS.starts.filter (· ≠ n), gS.names.filter fun p => p.1 ≠ b.2⟩ ::
    ⟨gK.id, gK.nodes.filter (· ∉ D), gK.starts.filter (· ∉ D), gK.names⟩ :: rest
  dead : ∀ d ∈ D, d = b.1
  look : gS.names.lookup b.2 = some n
  mem : n ∈ gS.nodes
  cleanIn : (w.node n).op = .IN → (w.node n).ins = []
  cleanOut : (w.node n).op ≠ .IN → (w.node n).outs = []
  inv : Inv w
  inv' : Inv w'
  same : SameFields w w' n
  eff : BindEffect w w' gK b.1 n hd

theorem bindOne_step {w w' : World} {gS gK : KGraph} {rest : List KGraph} {b : Nat × String} {hd : Nat} (hi : Inv w)
    (hst : w.stack = gS :: gK :: rest)
    (hclean : ∀ n, gS.names.lookup b.2 = some n → ((w.node n).op = .IN → (w.node n).ins = []) ∧ ((w.node n).op ≠ .IN → (w.node n).outs = []))
    (h : w.bindOne gK.id gS.id b = .ok (w', hd)) : ∃ st : BindStep w w' b hd, st.gS = gS ∧ st.gK = gK ∧ st.rest = rest := by
  have hids := hi.st.ids
  rw [hst] at hids
  simp only [List.map_cons, List.pairwise_cons, List.mem_cons, List.mem_map] at hids
  have hKS : gK.id ≠ gS.id := Nat.ne_of_lt (hids.1 gK.id (Or.inl rfl))
  have hSm : gS ∈ w.stack := by rw [hst]; simp
  have hKm : gK ∈ w.stack := by rw [hst]; simp
  have hS := kernel_eq hi.st hSm
  have hK := kernel_eq hi.st hKm
  obtain ⟨hi', n, hl, hn, hsame, heff⟩ := inv_bindOne hi hKS hK hS hclean h
  obtain ⟨n', D, hl', hD, hstk⟩ := bindOne_stack hKS hS h
  rw [hl] at hl'
  injection hl' with hl'
  subst hl'
  refine ⟨⟨gS, gK, rest, n, D, hst, ?_, hD, hl, hn, (hclean n hl).1, (hclean n hl).2, hi, hi', hsame, heff⟩, rfl, rfl, rfl⟩
  rw [hstk, hst]
  simp only [List.map_cons]
  congr 1
  · unfold trim; rw [if_pos rfl]
  congr 1
  · unfold trim; rw [if_neg hKS, if_pos rfl]
  · conv_rhs => rw [← List.map_id rest]
    apply List.map_congr_left
    intro g hg
    have h1 := hids.1 g.id (Or.inr ⟨g, hg, rfl⟩)
    have h2 := hids.2.1 g.id ⟨g, hg, rfl⟩
    unfold trim
    rw [if_neg (Nat.ne_of_lt h1), if_neg (Nat.ne_of_lt h2)]
    rfl

/-- A sequence of bindings. -/
inductive BindSteps : World → World → List (Nat × String) → List Nat → Prop
  | nil (w : World) : BindSteps w w [] []
  | cons {w w1 w2 : World} {b : Nat × String} {bs : List (Nat × String)} {hd : Nat} {hds : List Nat} (st : BindStep w w1 b hd) :
      BindSteps w1 w2 bs hds → BindSteps w w2 (b :: bs) (hd :: hds)

theorem lookup_filter_ne {l : List (String × Nat)} {s t : String} {n : Nat}
    (h : (l.filter fun p => p.1 ≠ t).lookup s = some n) : l.lookup s = some n ∧ s ≠ t := by
  induction l with
  | nil => simp at h
  | cons p ps ih =>
    obtain ⟨a, b⟩ := p
    by_cases ha : a = t
    · rw [List.filter_cons_of_neg (by simpa using ha)] at h
      obtain ⟨h1, h2⟩ := ih h
      refine ⟨?_, h2⟩
      rw [List.lookup_cons]
      have : (s == a) = false := by simpa using fun e : s = a => h2 (e.trans ha)
      rw [this]; exact h1
    · rw [List.filter_cons_of_pos (by simpa using ha)] at h
      rw [List.lookup_cons] at h ⊢
      by_cases hs : s = a
      · have : (s == a) = true := by simpa using hs
        rw [this] at h ⊢
        exact ⟨h, fun e => ha (hs.symm.trans e)⟩
      · have : (s == a) = false := by simpa using hs
        rw [this] at h ⊢
        exact ih h

/-- The bindings of `S` stay clean. -/
theorem BindStep.clean {w w' : World} {b : Nat × String} {hd : Nat} (st : BindStep w w' b hd) {m : Nat} {s : String}
    (hl : st.gS.names.lookup s = some m)
    (h : ((w.node m).op = .IN → (w.node m).ins = []) ∧ ((w.node m).op ≠ .IN → (w.node m).outs = [])) :
    ((w'.node m).op = .IN → (w'.node m).ins = []) ∧ ((w'.node m).op ≠ .IN → (w'.node m).outs = []) := by
  have hSm : st.gS ∈ w.stack := by rw [st.stack]; simp
  have hKm : st.gK ∈ w.stack := by rw [st.stack]; simp
  have hm := (st.inv.st.names _ hSm _ (lookup_mem hl)).1
  have hids := st.inv.st.ids
  rw [st.stack] at hids
  simp only [List.map_cons, List.pairwise_cons, List.mem_cons] at hids
  have hKS : st.gK.id ≠ st.gS.id := Nat.ne_of_lt (hids.1 _ (Or.inl rfl))
  have notK : m ∉ st.gK.nodes := fun hmK => hKS (by rw [one_kernel st.inv.st hKm hSm hmK hm])
  rw [st.same.op]
  cases st.eff with
  | input hop hv hh live ins outs src =>
    refine ⟨fun hI => by rw [ins]; exact h.1 hI, fun hO => ?_⟩
    rcases outs m with e | ⟨e, e2⟩
    · rw [e]; exact h.2 hO
    · exact absurd (e ▸ e2) notK
  | shallow c hop hv hnone hvi hin hne hh live ins outs src =>
    refine ⟨fun hI => by rw [ins]; exact h.1 hI, fun hO => ?_⟩
    rcases outs m with e | e
    · rw [e]; exact h.2 hO
    · rw [h.2 hO] at e; cases e
  | self c hop hv hnone hvi hin he hh live ins outs src =>
    refine ⟨fun hI => by rw [ins]; exact h.1 hI, fun hO => ?_⟩
    rcases outs m with e | e
    · rw [e]; exact h.2 hO
    · rw [h.2 hO] at e; cases e
  | output c hop hv hout hvi hin hh live ins outs src =>
    refine ⟨fun hI => ?_, fun hO => by rw [outs]; exact h.2 hO⟩
    rw [ins]
    split
    · rename_i e; exact absurd (e ▸ hv) notK
    · exact h.1 hI

theorem bindAll_steps : ∀ (bs : List (Nat × String)) (w w' : World) (gS gK : KGraph) (rest : List KGraph) (hds : List Nat), Inv w →
    w.stack = gS :: gK :: rest →
    (∀ b ∈ bs, ∀ n, gS.names.lookup b.2 = some n →
      ((w.node n).op = .IN → (w.node n).ins = []) ∧ ((w.node n).op ≠ .IN → (w.node n).outs = [])) →
    w.bindAll gK.id gS.id bs = .ok (w', hds) → BindSteps w w' bs hds
  | [], w, w', _, _, _, hds, _, _, _, h => by
    unfold World.bindAll at h
    injection h with h
    injection h with h1 h2
    subst h1; subst h2
    exact .nil w
  | b :: bs, w, w', gS, gK, rest, hds, hi, hst, hcl, h => by
    unfold World.bindAll at h
    obtain ⟨⟨w1, hd⟩, h1, h2⟩ := bind_ok h
    obtain ⟨⟨w2, hds'⟩, h3, h4⟩ := bind_ok h2
    injection h4 with h4
    injection h4 with h4 h5
    subst h4; subst h5
    obtain ⟨st, e1, e2, e3⟩ := bindOne_step hi hst (hcl b (by simp)) h1
    subst e1; subst e2; subst e3
    refine .cons st (bindAll_steps bs w1 w2 _ _ _ hds' st.inv' st.stack' ?_ h3)
    intro b' hb' n hl
    obtain ⟨hl', -⟩ := lookup_filter_ne hl
    exact st.clean hl' (hcl b' (by simp [hb']) n hl')

theorem BindSteps.inv {w w' : World} {bs : List (Nat × String)} {hds : List Nat} (h : BindSteps w w' bs hds) (hi : Inv w) : Inv w' := by
  induction h with
  | nil => exact hi
  | cons st _ ih => exact ih st.inv'

/-! ### transfer -/

theorem inv_transfer {w w' : World} (hi : Inv w) (h : w.transfer = .ok w') : Inv w' := by
  unfold World.transfer at h
  split at h
  swap
  · cases h
  rename_i S K rest hst
  injection h with h
  have hids := hi.st.ids
  rw [hst] at hids
  simp only [List.map_cons, List.pairwise_cons, List.mem_cons, List.mem_map] at hids
  have hSm : S ∈ w.stack := by rw [hst]; simp
  have hKm : K ∈ w.stack := by rw [hst]; simp
  have hSK : S.id ≠ K.id := Nat.ne_of_gt (hids.1 K.id (Or.inl rfl))
  have hS0 : S.id ≠ 0 := by have := hids.1 K.id (Or.inl rfl); omega
  have disj : ∀ m, m ∈ K.nodes → m ∉ S.nodes := fun m hK hS => hSK (by rw [one_kernel hi.st hKm hSm hK hS])
  have disjR : ∀ g ∈ rest, ∀ m, m ∈ g.nodes → m ∉ S.nodes := by
    intro g hg m hm hS
    have hgm : g ∈ w.stack := by rw [hst]; simp [hg]
    have e := one_kernel hi.st hgm hSm hm hS
    have hlt := hids.1 g.id (Or.inr ⟨g, hg, rfl⟩)
    rw [e] at hlt
    exact Nat.lt_irrefl _ hlt
  have noConst : (S.starts.filter fun n => decide ((w.node n).op = .CONST)) = [] := by
    rw [List.filter_eq_nil_iff]
    intro n hn
    simp only [decide_eq_true_eq]
    intro hop
    exact hS0 (hi.st.constTop S hSm n ((hi.st.starts S hSm).2 n hn).1 hop).2
  have hstk : w'.stack = ⟨K.id, K.nodes ++ S.nodes, K.starts, K.names⟩ :: rest := by
    rw [← h]; dsimp only; rw [noConst, List.append_nil]
  have hnode : ∀ m, w'.node m = if m ∈ S.nodes then { w.node m with kern := K.id } else w.node m := by intro m; rw [← h]
  have hf : ∀ m, (w'.node m).op = (w.node m).op ∧ (w'.node m).kind = (w.node m).kind ∧ (w'.node m).name = (w.node m).name ∧
      (w'.node m).ins = (w.node m).ins ∧ (w'.node m).outs = (w.node m).outs := by
    intro m; rw [hnode]; split <;> exact ⟨rfl, rfl, rfl, rfl, rfl⟩
  have hn : w'.next = w.next ∧ w'.nextC = w.nextC ∧ w'.nextK = w.nextK ∧ w'.chan = w.chan := by rw [← h]; exact ⟨rfl, rfl, rfl, rfl⟩
  have hrest : ∀ g ∈ rest, g ∈ w.stack := by intro g hg; rw [hst]; simp [hg]
  have hlive : ∀ m, w'.Live m ↔ w.Live m := by
    intro m
    unfold World.Live
    rw [hstk, hst]
    simp only [List.mem_cons, exists_eq_or_imp, List.mem_append]
    tauto
  clear h
  refine ⟨⟨?_, ?_, ?_, ?_, ?_, ?_, ?_, ?_, ?_⟩, ?_⟩
  · obtain ⟨g, hg, h0⟩ := hi.st.top
    rw [hst] at hg
    rw [hstk]
    simp only [List.mem_cons] at hg
    rcases hg with rfl | rfl | hg
    · exact absurd h0 hS0
    · exact ⟨_, List.mem_cons_self, h0⟩
    · exact ⟨g, by simp [hg], h0⟩
  · rw [hstk]
    simp only [List.map_cons, List.pairwise_cons, List.mem_map]
    exact hids.2
  · rw [hstk, hn.2.2.1]
    intro g hg
    rcases List.mem_cons.mp hg with rfl | hg
    · exact hi.st.idLt K hKm
    · exact hi.st.idLt g (hrest g hg)
  · rw [hstk]
    intro g hg
    rcases List.mem_cons.mp hg with rfl | hg
    · exact List.Nodup.append (hi.st.nodes K hKm) (hi.st.nodes S hSm) (fun m a b => disj m a b)
    · exact hi.st.nodes g (hrest g hg)
  · rw [hstk, hn.1]
    intro g hg m hm
    rcases List.mem_cons.mp hg with rfl | hg
    · simp only [List.mem_append] at hm
      rw [hnode]
      rcases hm with hm | hm
      · rw [if_neg (disj m hm)]; exact hi.st.own K hKm m hm
      · rw [if_pos hm]; exact ⟨(hi.st.own S hSm m hm).1, rfl⟩
    · rw [hnode, if_neg (disjR g hg m hm)]; exact hi.st.own g (hrest g hg) m hm
  · rw [hstk]
    intro g hg
    rcases List.mem_cons.mp hg with rfl | hg
    · refine ⟨(hi.st.starts K hKm).1, fun m hm => ?_⟩
      have := (hi.st.starts K hKm).2 m hm
      rw [(hf m).1]
      exact ⟨by simp [this.1], this.2⟩
    · refine ⟨(hi.st.starts g (hrest g hg)).1, fun m hm => ?_⟩
      rw [(hf m).1]; exact (hi.st.starts g (hrest g hg)).2 m hm
  · rw [hstk]
    intro g hg p hp
    rw [(hf _).1, (hf _).2.2.1]
    rcases List.mem_cons.mp hg with rfl | hg
    · have := hi.st.names K hKm p hp
      exact ⟨by simp [this.1], this.2⟩
    · exact hi.st.names g (hrest g hg) p hp
  · intro m hm
    rw [(hf m).1, (hf m).2.1]; exact hi.st.const m (hn.1 ▸ hm)
  · rw [hstk]
    intro g hg m hm hop
    rw [(hf m).1] at hop
    rcases List.mem_cons.mp hg with rfl | hg
    · simp only [List.mem_append] at hm
      rcases hm with hm | hm
      · exact hi.st.constTop K hKm m hm hop
      · exact absurd (hi.st.constTop S hSm m hm hop).2 hS0
    · exact hi.st.constTop g (hrest g hg) m hm hop
  · rw [hn.2.1, hn.2.2.2]
    exact hi.ch.congr hlive fun m _ => ⟨(hf m).2.2.2.1, (hf m).2.2.2.2⟩

/-! ### Calls -/

theorem cur_mem {w : World} (h : StackInv w) : ∃ g ∈ w.stack, g.id = w.cur := by
  unfold World.cur
  obtain ⟨g, hg, -⟩ := h.top
  cases hs : w.stack with
  | nil => rw [hs] at hg; cases hg
  | cons a l => exact ⟨a, by simp, rfl⟩

/-- The operands and parameters of an operator node. -/
structure OpShape (w : World) (op : OpType) (data : NodeData) (ty : DFType) (l : List Nat) : Prop where
  isOp : op ≠ .CONST ∧ op ≠ .IN ∧ op ≠ .OUT ∧ op ≠ .NONE
  mux : op = .MUX → data = .muxId 0 ∧ 2 ≤ l.length
  unary : op ∈ [.NOT, .NEG, .CAST, .OFFSET, .SHL, .SHR, .BITS] → ∃ s, l = [s]
  binary : op ∈ [.ADD, .SUB, .MUL, .DIV, .AND, .OR, .XOR, .LESS, .LESSEQ, .GREATER, .GREATEREQ, .EQ, .NEQ, .CAT] →
    ∃ a b, l = [a, b]
  offset : op = .OFFSET → (∃ o, data = .offset o) ∧ ∀ s ∈ l, (w.node s).ty = ty
  shift : op ∈ [.SHL, .SHR] → ∃ k, data = .bitShift k
  bits : op = .BITS → ∃ l r, data = .bitsRange l r
  comp : op.isComparison = true → ty = buildBool

/-- Neither a connection nor about instances. -/
def Cmd.simple : Cmd → Bool
  | .connect _ _ | .beginInst | .endInst _ => false
  | _ => true

/-- What kinds of state changes the calls are made of. -/
inductive Shape (w w' : World) : Cmd → List Nat → Prop
  | new {cmd : Cmd} (op : OpType) (ty : DFType) (sc : Bool) (name : String) (hop : op = .IN ∨ op = .OUT ∨ (op = .NONE ∧ name = ""))
      (e : w' = w.addNode w.cur ⟨op, .none, ty, varKind sc, name, w.cur, [], []⟩) (hc : (cmd = .input sc name ty ∧ op = .IN) ∨
        (cmd = .output sc name ty ∧ op = .OUT) ∨ (cmd = .newVar sc ty ∧ op = .NONE ∧ name = "")) : Shape w w' cmd [w.next]
  | const {cmd : Cmd} (ty : DFType) (v : Word) (n : Nat) (h : w.createOrUseConst ty v = .ok (w', n))
      (hsi : cmd.simple = true) (hcr : cmd.creates w = none) (hc : ∀ ty' v', cmd = .const ty' v' → ty = ty' ∧ v = v') : Shape w w' cmd [n]
  | op {cmd : Cmd} (k : Nat) (op : OpType) (data : NodeData) (ty : DFType) (l : List Nat) (n : Nat)
      (hop : OpShape w op data ty l) (hcr : cmd.creates w = some op)
      (h : w.newOp k op data ty l = .ok (w', n)) (hl : l = cmd.vars) : Shape w w' cmd [n]
  | same {cmd : Cmd} (a : Nat) (e : w' = w) (hsi : cmd.simple = true) (hcr : cmd.creates w = none) (hc : ∀ ty v, cmd ≠ .const ty v) : Shape w w' cmd [a]
  | connect (a b : Nat) (h : w.addChannel (w.node a).kern b a 0 true = .ok w') : Shape w w' (.connect a b) []
  | begin (e : w' = { w with nextK := w.nextK + 1, stack := ⟨w.nextK, [], [], []⟩ :: w.stack }) : Shape w w' .beginInst []
  | inst (bs : List (Nat × String)) (S K : KGraph) (rest : List KGraph) (hst : w.stack = S :: K :: rest) (w1 : World)
      (hds : List Nat) (h : w.bindAll K.id S.id bs = .ok (w1, hds)) (ht : w1.transfer = .ok w') : Shape w w' (.endInst bs) hds

theorem one_ok {r : Except Fault (World × Nat)} {w' : World} {rs : List Nat}
    (h : retOne r = .ok (w', rs)) : ∃ n, r = .ok (w', n) ∧ rs = [n] := by
  unfold retOne at h
  split at h
  · injection h with h
    injection h with h2 h3
    subst h2; subst h3
    exact ⟨_, rfl, rfl⟩
  · cases h

theorem opShape_bin (w : World) {op : OpType} (h : isBinaryOp op = true) (ty : DFType) (a b : Nat) :
    OpShape w op .none (streamResultType op ty) [a, b] := by
  cases op <;> first
    | exact absurd h (by decide)
    | (constructor <;> simp [OpType.isComparison, streamResultType])

theorem exec_vars {F : FloatOps} {w w' : World} {cmd : Cmd} {rs : List Nat} (h : w.exec F cmd = .ok (w', rs)) :
    ∀ v ∈ cmd.vars, v < w.next := by
  unfold World.exec at h
  split at h
  · cases h
  · rename_i hv
    intro v hm
    by_contra hc
    exact hv ⟨v, hm, by omega⟩

theorem exec_shape {F : FloatOps} {w w' : World} {cmd : Cmd} {rs : List Nat} (h : w.exec F cmd = .ok (w', rs)) :
    Shape w w' cmd rs := by
  unfold World.exec at h
  split at h
  · cases h
  cases cmd with
  | input sc name ty =>
    injection h with h; injection h with h1 h2; subst h1; subst h2
    exact .new .IN ty sc name (Or.inl rfl) rfl (by simp)
  | output sc name ty =>
    injection h with h; injection h with h1 h2; subst h1; subst h2
    exact .new .OUT ty sc name (Or.inr (Or.inl rfl)) rfl (by simp)
  | newVar sc ty =>
    injection h with h; injection h with h1 h2; subst h1; subst h2
    exact .new .NONE ty sc "" (Or.inr (Or.inr ⟨rfl, rfl⟩)) rfl (by simp)
  | const ty v =>
    obtain ⟨n, hh, rfl⟩ := one_ok h
    exact .const ty v n hh rfl rfl (by simp)
  | bin op a b =>
    dsimp only at h
    split at h
    swap
    · cases h
    rename_i hop
    split at h
    · rename_i x y hx hy
      split at h
      · obtain ⟨n, hh, rfl⟩ := one_ok h
        exact .const _ _ n hh rfl (by simp [Cmd.creates, hx, hy, VarKind.isConst]) (by simp)
      · cases h
      · cases h
    · rename_i x hx hy
      obtain ⟨n, hh, rfl⟩ := one_ok h
      refine .op _ _ _ _ _ n (opShape_bin w hop _ a b) ?_ hh rfl
      cases hk : (w.node b).kind with
      | const y => exact absurd hk (hy y)
      | _ => simp [Cmd.creates, hk, VarKind.isConst]
    · rename_i hx hy
      obtain ⟨n, hh, rfl⟩ := one_ok h
      refine .op _ _ _ _ _ n (opShape_bin w hop _ a b) ?_ hh rfl
      cases hk : (w.node a).kind with
      | const y => exact absurd hk (hx y)
      | _ => simp [Cmd.creates, hk, VarKind.isConst]
  | un op a =>
    dsimp only at h
    split at h
    swap
    · cases h
    rename_i hop
    split at h
    · rename_i x hx
      split at h
      · obtain ⟨n, hh, rfl⟩ := one_ok h
        exact .const _ _ n hh rfl (by simp [Cmd.creates, hx, VarKind.isConst]) (by simp)
      · cases h
      · cases h
    · rename_i hx
      obtain ⟨n, hh, rfl⟩ := one_ok h
      refine .op _ _ _ _ _ n ?_ ?_ hh rfl
      · rcases hop with rfl | rfl <;> constructor <;> simp [OpType.isComparison]
      · cases hk : (w.node a).kind with
        | const y => exact absurd hk (hx y)
        | _ => simp [Cmd.creates, hk, VarKind.isConst]
  | shift left a bits =>
    dsimp only at h
    split at h
    · rename_i x hx
      split at h
      · obtain ⟨n, hh, rfl⟩ := one_ok h
        exact .const _ _ n hh rfl (by simp [Cmd.creates, hx, VarKind.isConst]) (by simp)
      · cases h
    · rename_i hx
      obtain ⟨n, hh, rfl⟩ := one_ok h
      refine .op _ _ _ _ _ n ?_ ?_ hh rfl
      · cases left <;> constructor <;> simp [OpType.isComparison]
      · cases hk : (w.node a).kind with
        | const y => exact absurd hk (hx y)
        | _ => simp [Cmd.creates, hk, VarKind.isConst]
  | bits a f s =>
    dsimp only at h
    split at h
    · cases h
    · obtain ⟨n, hh, rfl⟩ := one_ok h
      exact .op _ _ _ _ _ n (by constructor <;> simp [OpType.isComparison]) rfl hh rfl
  | cat a b =>
    dsimp only at h
    obtain ⟨n, hh, rfl⟩ := one_ok h
    exact .op _ _ _ _ _ n (by constructor <;> simp [OpType.isComparison]) rfl hh rfl
  | cast a ty same =>
    dsimp only at h
    split at h
    · rename_i hs
      injection h with h; injection h with h1 h2; subst h1; subst h2
      exact .same a rfl rfl (by simp [Cmd.creates, hs]) (by simp)
    · rename_i hs
      obtain ⟨n, hh, rfl⟩ := one_ok h
      exact .op _ _ _ _ _ n (by constructor <;> simp [OpType.isComparison]) (by simp [Cmd.creates, hs]) hh rfl
  | mux c args =>
    dsimp only at h
    split at h
    · cases h
    · obtain ⟨n, hh, rfl⟩ := one_ok h
      exact .op _ _ _ _ _ n (by constructor <;> simp [OpType.isComparison]) rfl hh rfl
  | offset a o =>
    dsimp only at h
    split at h
    · obtain ⟨n, hh, rfl⟩ := one_ok h
      exact .op _ _ _ _ _ n (by constructor <;> simp [OpType.isComparison]) rfl hh rfl
    · cases h
  | connect a b =>
    dsimp only at h
    obtain ⟨w1, h1, h2⟩ := bind_ok h
    injection h2 with h2
    injection h2 with h2 h3
    subst h2; subst h3
    exact .connect a b h1
  | beginInst =>
    injection h with h; injection h with h1 h2; subst h1; subst h2
    exact .begin rfl
  | endInst bs =>
    dsimp only at h
    split at h
    swap
    · cases h
    rename_i S K rest hst
    obtain ⟨⟨w1, hds⟩, h1, h2⟩ := bind_ok h
    obtain ⟨w2, h3, h4⟩ := bind_ok h2
    injection h4 with h4
    injection h4 with h4 h5
    dsimp only at h3
    subst h4; subst h5
    exact .inst bs S K rest hst w1 hds h1 h3

theorem clean_lookup {w : World} {bs : List (Nat × String)} {S K : KGraph} {rest : List KGraph} (hst : w.stack = S :: K :: rest)
    (h : Clean w (.endInst bs)) : ∀ b ∈ bs, ∀ n, S.names.lookup b.2 = some n →
      ((w.node n).op = .IN → (w.node n).ins = []) ∧ ((w.node n).op ≠ .IN → (w.node n).outs = []) :=
  fun b hb n hl => h b hb n ⟨S, K :: rest, hst, hl⟩

theorem inv_begin {w : World} (hi : Inv w) : Inv { w with nextK := w.nextK + 1, stack := ⟨w.nextK, [], [], []⟩ :: w.stack } := by
  refine ⟨⟨?_, ?_, ?_, ?_, ?_, ?_, ?_, hi.st.const, ?_⟩, ?_⟩
  · obtain ⟨g, hg, h0⟩ := hi.st.top
    exact ⟨g, by simp [hg], h0⟩
  · simp only [List.map_cons, List.pairwise_cons]
    refine ⟨?_, hi.st.ids⟩
    intro x hx
    simp only [List.mem_map] at hx
    obtain ⟨g, hg, rfl⟩ := hx
    exact hi.st.idLt g hg
  · intro g hg
    rcases List.mem_cons.mp hg with rfl | hg
    · exact Nat.lt_succ_self _
    · exact Nat.lt_succ_of_lt (hi.st.idLt g hg)
  · intro g hg
    rcases List.mem_cons.mp hg with rfl | hg
    · exact List.nodup_nil
    · exact hi.st.nodes g hg
  · intro g hg m hm
    rcases List.mem_cons.mp hg with rfl | hg
    · cases hm
    · exact hi.st.own g hg m hm
  · intro g hg
    rcases List.mem_cons.mp hg with rfl | hg
    · exact ⟨List.nodup_nil, fun n hn => by cases hn⟩
    · exact hi.st.starts g hg
  · intro g hg p hp
    rcases List.mem_cons.mp hg with rfl | hg
    · cases hp
    · exact hi.st.names g hg p hp
  · intro g hg m hm hop
    rcases List.mem_cons.mp hg with rfl | hg
    · cases hm
    · exact hi.st.constTop g hg m hm hop
  · refine hi.ch.congr (fun m => ?_) fun _ _ => ⟨rfl, rfl⟩
    unfold World.Live
    simp

theorem inv_exec {F : FloatOps} {w w' : World} {cmd : Cmd} {rs : List Nat} (hi : Inv w) (hc : Clean w cmd)
    (h : w.exec F cmd = .ok (w', rs)) : Inv w' := by
  cases exec_shape h with
  | new op ty sc name hop e _ =>
    subst e
    refine inv_addNode hi _ _ (cur_mem hi.st) ?_ ?_ ?_
    · rcases hop with rfl | rfl | ⟨rfl, -⟩ <;> cases sc <;> simp [varKind, VarKind.isConst]
    · rcases hop with rfl | rfl | ⟨rfl, -⟩ <;> simp
    · rcases hop with rfl | rfl | ⟨rfl, rfl⟩ <;> simp
  | const ty v n hh _ _ _ => exact inv_createOrUseConst hi hh
  | op k op data ty l n hop _ hh _ => exact inv_newOp hi hop.isOp.1 hh
  | same a e _ _ _ => exact e ▸ hi
  | connect a b hh => exact inv_addChannel hi hh
  | begin e => exact e ▸ inv_begin hi
  | inst bs S K rest hst w1 _ h1 h2 =>
    exact inv_transfer ((bindAll_steps bs w w1 S K rest _ hi hst (clean_lookup hst hc) h1).inv hi) h2

theorem inv_hist {F : FloatOps} {P : World → Cmd → Prop} (hP : ∀ w c, P w c → Clean w c) {w w' : World} (h : Hist F P w w')
    (hi : Inv w) : Inv w' := by
  induction h with
  | nil => exact hi
  | snoc c _ hp he ih => exact inv_exec ih (hP _ _ hp) he

/-- **C03** (consistency): after any history of calls, every graph under construction is consistent. -/
theorem api_graph_consistent {F : FloatOps} {w : World} (h : Hist F Clean World.init w) : Consistent w :=
  (inv_hist (fun _ _ h => h) h inv_init).consistent

end Verif.Dfcxx
