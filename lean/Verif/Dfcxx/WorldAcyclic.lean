import Verif.Dfcxx.WorldHist
/-
Forward histories build acyclic graphs (C03).
-/
namespace Verif.Dfcxx

theorem edge_live {w : World} (hi : Inv w) {a b : Nat} (h : w.Edge a b) : w.Live a ∧ w.Live b := by
  obtain ⟨lb, c, hc, rfl⟩ := h
  exact ⟨(hi.ch.inn b lb c hc).2.2.1, lb⟩

theorem edge_lt {w : World} (hi : Inv w) {a b : Nat} (h : w.Edge a b) : a < w.next ∧ b < w.next :=
  ⟨live_lt hi.st (edge_live hi h).1, live_lt hi.st (edge_live hi h).2⟩

/-- Node fields other than the channel lists are the same. -/
def FieldsEq (r r' : NodeRec) : Prop :=
  r'.op = r.op ∧ r'.data = r.data ∧ r'.ty = r.ty ∧ r'.kind = r.kind ∧ r'.name = r.name ∧ r'.kern = r.kern

theorem FieldsEq.refl (r : NodeRec) : FieldsEq r r := ⟨rfl, rfl, rfl, rfl, rfl, rfl⟩
theorem FieldsEq.trans {r s t : NodeRec} (h : FieldsEq r s) (h' : FieldsEq s t) : FieldsEq r t :=
  ⟨h'.1.trans h.1, h'.2.1.trans h.2.1, h'.2.2.1.trans h.2.2.1, h'.2.2.2.1.trans h.2.2.2.1, h'.2.2.2.2.1.trans h.2.2.2.2.1,
    h'.2.2.2.2.2.trans h.2.2.2.2.2⟩

theorem edge_addNode {w : World} (hi : Inv w) {k : Nat} {r : NodeRec} (hk : ∃ g ∈ w.stack, g.id = k) (a b : Nat) :
    (w.addNode k r).Edge a b ↔ w.Edge a b := by
  unfold World.Edge
  rw [live_addNode w k r hk]
  have hc : (w.addNode k r).chan = w.chan := rfl
  rw [hc]
  constructor
  · rintro ⟨l, c, hc, e⟩
    by_cases hb : b = w.next
    · subst hb; rw [addNode_new] at hc; cases hc
    · rw [addNode_node _ _ _ _ hb] at hc
      exact ⟨l.resolve_left hb, c, hc, e⟩
  · rintro ⟨l, c, hc, e⟩
    have hb : b ≠ w.next := Nat.ne_of_lt (live_lt hi.st l)
    exact ⟨Or.inr l, c, by rw [addNode_node _ _ _ _ hb]; exact hc, e⟩

theorem link_live (w : World) (s t i : Nat) (b : Bool) (m : Nat) : (w.link s t i b).Live m ↔ w.Live m := Iff.rfl

theorem link_chan_old (w : World) (s t i : Nat) (b : Bool) {c : Nat} (h : c < w.nextC) : (w.link s t i b).chan c = w.chan c := by
  unfold World.link; dsimp only; rw [if_neg (by omega)]

theorem link_chan_new (w : World) (s t i : Nat) (b : Bool) : (w.link s t i b).chan w.nextC = ⟨s, t, i, b⟩ := by
  unfold World.link; simp

theorem edge_link {w : World} (hi : Inv w) {s t i : Nat} {f : Bool} (ht : w.Live t) (a b : Nat) :
    (w.link s t i f).Edge a b ↔ w.Edge a b ∨ (a = s ∧ b = t) := by
  unfold World.Edge
  rw [link_live, link_ins]
  constructor
  · rintro ⟨l, c, hc, e⟩
    have key : c ∈ (w.node b).ins ∨ (b = t ∧ c = w.nextC) := by
      split at hc
      · rename_i hb
        simp only [List.mem_append, List.mem_singleton] at hc
        exact hc.imp id fun h => ⟨hb, h⟩
      · exact Or.inl hc
    rcases key with hc | ⟨hb, rfl⟩
    · rw [link_chan_old _ _ _ _ _ (hi.ch.inn b l c hc).1] at e
      exact Or.inl ⟨l, c, hc, e⟩
    · rw [link_chan_new] at e
      exact Or.inr ⟨e.symm, hb⟩
  · rintro (⟨l, c, hc, e⟩ | ⟨rfl, rfl⟩)
    · refine ⟨l, c, ?_, by rw [link_chan_old _ _ _ _ _ (hi.ch.inn b l c hc).1]; exact e⟩
      split <;> simp [hc]
    · exact ⟨ht, w.nextC, by rw [if_pos rfl]; simp, by rw [link_chan_new]⟩

/-- What a channel from `s` to a node of kernel `k` needs. -/
theorem addChannel_source {w w' : World} (hi : Inv w) {k s t i : Nat} {b : Bool} (h : w.addChannel k s t i b = .ok w') :
    ((w.node s).op = .CONST ∨ (w.node s).kern = k) ∧ (w.node t).kern = k := by
  obtain ⟨-, g, gs, h1, h2, hs, ht⟩ := addChannel_ok h
  obtain ⟨m1, e1⟩ := kernel_some h1
  obtain ⟨m2, e2⟩ := kernel_some h2
  refine ⟨?_, by rw [(hi.st.own g m1 t ht).2, e1]⟩
  by_cases hc : (w.node s).kind.isConst = true
  · exact Or.inl ((hi.st.const s (hi.st.own gs m2 s hs).1).mpr hc)
  · right
    rw [if_neg hc] at e2
    rw [(hi.st.own gs m2 s hs).2, e2]

structure OperandsEffect (w w' : World) (k t : Nat) (l : List Nat) : Prop where
  next : w'.next = w.next
  nextK : w'.nextK = w.nextK
  stack : w'.stack = w.stack
  fields : ∀ m, FieldsEq (w.node m) (w'.node m)
  edge : ∀ a b, w'.Edge a b ↔ w.Edge a b ∨ (a ∈ l ∧ b = t)
  source : ∀ a ∈ l, w.Live a ∧ ((w.node a).op = .CONST ∨ (w.node a).kern = k)

theorem addOperands_effect (k t : Nat) : ∀ (l : List Nat) (i : Nat) (w w' : World), Inv w → w.addOperands k t i l = .ok w' →
    OperandsEffect w w' k t l
  | [], _, w, w', _, h => by
    unfold World.addOperands at h
    injection h with h
    subst h
    exact ⟨rfl, rfl, rfl, fun _ => .refl _, by simp, by simp⟩
  | x :: rest, i, w, w', hi, h => by
    unfold World.addOperands at h
    obtain ⟨w1, h1, h2⟩ := bind_ok h
    have hi1 := inv_addChannel hi h1
    have hs := addChannel_source hi h1
    obtain ⟨e, ls, lt⟩ := addChannel_live h1
    obtain ⟨n1, n2, n3, hf, he, hso⟩ := addOperands_effect k t rest (i + 1) w1 w' hi1 h2
    have f1 : ∀ m, FieldsEq (w.node m) (w1.node m) := by
      intro m
      obtain ⟨a, b, c, d, e', f⟩ := link_fields w x t i false m
      rw [e]; exact ⟨a, f, e', b, d, c⟩
    refine ⟨?_, ?_, ?_, fun m => (f1 m).trans (hf m), ?_, ?_⟩
    · rw [n1, e]; rfl
    · rw [n2, e]; rfl
    · rw [n3, e]; rfl
    · intro a b
      rw [he, e, edge_link hi lt]
      simp only [List.mem_cons]
      tauto
    · intro a ha
      rcases List.mem_cons.mp ha with rfl | ha
      · exact ⟨ls, hs.1⟩
      · have := hso a ha
        rw [(f1 a).1, (f1 a).2.2.2.2.2] at this
        exact ⟨by rw [e] at this; exact this.1, this.2⟩

/-- A new operator: the edges from its operands. -/
theorem newOp_effect {w w' : World} {k n : Nat} {op : OpType} {data : NodeData} {ty : DFType} {l : List Nat} (hi : Inv w)
    (hop : op ≠ .CONST) (h : w.newOp k op data ty l = .ok (w', n)) (hl : ∀ a ∈ l, a < w.next) :
    n = w.next ∧ (∃ g ∈ w.stack, g.id = k) ∧ w'.next = w.next + 1 ∧ (w'.node w.next).op = op ∧ (w'.node w.next).kern = k ∧
    (∀ m, m ≠ w.next → FieldsEq (w.node m) (w'.node m)) ∧
    (∀ a b, w'.Edge a b ↔ w.Edge a b ∨ (a ∈ l ∧ b = w.next)) ∧ (∀ a ∈ l, w.Live a ∧ ((w.node a).op = .CONST ∨ (w.node a).kern = k)) ∧
    (∀ m, w'.Live m ↔ m = w.next ∨ w.Live m) := by
  obtain ⟨e, hk, h⟩ := newOp_ok h
  have hi1 : Inv (w.addNode k ⟨op, data, ty, .stream, "", k, [], []⟩) := by
    refine inv_addNode hi k _ hk ?_ ?_ ?_
    · simp [hop, VarKind.isConst]
    · intro e; exact absurd e hop
    · intro e; exact absurd rfl e
  have eff := addOperands_effect _ _ _ _ _ _ hi1 h
  have fn := eff.fields w.next
  rw [addNode_new] at fn
  have live : ∀ m, w'.Live m ↔ m = w.next ∨ w.Live m := by
    intro m
    have := live_addNode w k ⟨op, data, ty, .stream, "", k, [], []⟩ hk m
    rw [← this]
    unfold World.Live
    rw [eff.stack]
  refine ⟨e, hk, by rw [eff.next]; rfl, fn.1, fn.2.2.2.2.2, ?_, ?_, ?_, live⟩
  · intro m hm
    have := eff.fields m
    rwa [addNode_node _ _ _ _ hm] at this
  · intro a b
    rw [eff.edge, edge_addNode hi hk]
  · intro a ha
    have := eff.source a ha
    have hne := Nat.ne_of_lt (hl a ha)
    rw [addNode_node _ _ _ _ hne, live_addNode w k _ hk] at this
    exact ⟨this.1.resolve_left hne, this.2⟩

/-! ### The acyclicity invariant -/

/-- Every channel goes up in rank. -/
def Ranked (w : World) (R : Nat → Nat) : Prop := ∀ a b, w.Edge a b → R a < R b

/-- Channels stay inside a kernel, up to `f` on the kernels' numbers; constants may be read anywhere and read nothing. -/
structure LocalUpTo (w : World) (f : Nat → Nat) : Prop where
  loc : ∀ a b, w.Edge a b → (w.node a).op = .CONST ∨ f (w.node a).kern = f (w.node b).kern
  constIn : ∀ a b, w.Edge a b → (w.node b).op ≠ .CONST

structure AInv (w : World) : Prop where
  ranked : ∃ R, Ranked w R
  loc : LocalUpTo w id

theorem Ranked.dep {w : World} {R : Nat → Nat} (h : Ranked w R) {a b : Nat} (d : w.Dep a b) : R a ≤ R b := by
  induction d with
  | refl => exact Nat.le_refl _
  | step _ e ih => exact Nat.le_trans ih (Nat.le_of_lt (h _ _ e))

theorem Ranked.acyclic {w : World} {R : Nat → Nat} (h : Ranked w R) : w.Acyclic := by
  intro a b e d
  have := h a b e
  have := h.dep d
  omega

theorem sum_ge (R : Nat → Nat) : ∀ (l : List Nat) (a : Nat), a ∈ l → R a ≤ (l.map R).sum
  | x :: xs, a, h => by
    rcases List.mem_cons.mp h with rfl | h
    · simp
    · have := sum_ge R xs a h
      simp only [List.map_cons, List.sum_cons]; omega

/-- A bound on the ranks of live nodes. -/
theorem rank_bound (R : Nat → Nat) (n : Nat) : ∃ N, ∀ a, a < n → R a < N := by
  refine ⟨((List.range n).map R).sum + 1, fun a ha => ?_⟩
  have := sum_ge R (List.range n) a (List.mem_range.mpr ha)
  omega

/-! ### One binding -/

/-- New channels after a binding. -/
theorem BindStep.edge {w w' : World} {b : Nat × String} {hd : Nat} (st : BindStep w w' b hd) {x y : Nat} (h : w'.Edge x y) :
    y ≠ st.n ∧ (w.Edge x y ∨
     ((w.node st.n).op = .IN ∧ x = b.1 ∧ b.1 ∈ st.gK.nodes ∧ w.Edge st.n y) ∨
     ((w.node st.n).op = .OUT ∧ b.1 ∈ st.gK.nodes ∧ w.Edge x st.n ∧ (w.Edge b.1 y ∨ y = b.1))) := by
  obtain ⟨l, c, hc, e⟩ := h
  have nlive : w.Live st.n := ⟨st.gS, by rw [st.stack]; simp, st.mem⟩
  cases st.eff with
  | input hop hv hh live ins outs src =>
    have l' := (live y).mp l
    refine ⟨l'.2, ?_⟩
    rw [ins] at hc
    rw [src] at e
    split at e
    · rename_i hco
      right; left
      refine ⟨hop, e.symm, ?_, l'.1, c, hc, (st.inv.ch.out st.n nlive c hco).2.1⟩
      rcases hv with hv | hv
      · exact hv
      · rw [hv] at hco; cases hco
    · exact Or.inl ⟨l'.1, c, hc, e⟩
  | shallow d hop hv hnone hvi hin hne hh live ins outs src =>
    have l' := (live y).mp l
    refine ⟨l'.2.1, ?_⟩
    rw [ins] at hc
    rw [src] at e
    have vlive : w.Live b.1 := ⟨st.gK, by rw [st.stack]; simp, hv⟩
    split at e
    · rename_i hco
      right; right
      exact ⟨hop, hv, ⟨nlive, d, by rw [hin]; simp, e⟩, Or.inl ⟨l'.1, c, hc, (st.inv.ch.out b.1 vlive c hco).2.1⟩⟩
    · exact Or.inl ⟨l'.1, c, hc, e⟩
  | self d hop hv hnone hvi hin he hh live ins outs src =>
    have l' := (live y).mp l
    rw [ins] at hc
    rw [src] at e
    exact ⟨l'.2, Or.inl ⟨l'.1, c, hc, e⟩⟩
  | output d hop hv hout hvi hin hh live ins outs src =>
    have l' := (live y).mp l
    refine ⟨l'.2, ?_⟩
    rw [ins] at hc
    rw [src] at e
    split at hc
    · rename_i hy
      simp only [List.mem_singleton] at hc
      subst hc
      right; right
      exact ⟨hop, hv, ⟨nlive, c, by rw [hin]; simp, e⟩, Or.inr hy⟩
    · exact Or.inl ⟨l'.1, c, hc, e⟩

/-- The bindings of the instance, as the original state sees them. -/
structure BindPlan (w : World) (S K : Nat) (cls : Nat → Nat) (name : String → Option Nat) (bs : List (Nat × String)) : Prop where
  input : ∀ b ∈ bs, ∀ n, name b.2 = some n → (w.node n).op = .IN → (w.node b.1).kern = K → cls b.1 = 0
  output : ∀ b ∈ bs, ∀ n, name b.2 = some n → (w.node n).op ≠ .IN → (w.node b.1).kern = K →
    (w.node b.1).op ≠ .CONST → cls b.1 = 2
  sub : ∀ n, (w.node n).kern = S → cls n = 1

theorem BindStep.live_mono {w w' : World} {b : Nat × String} {hd : Nat} (st : BindStep w w' b hd) {m : Nat} (h : w'.Live m) :
    w.Live m := by
  cases st.eff with
  | input _ _ _ live => exact ((live m).mp h).1
  | shallow _ _ _ _ _ _ _ _ live => exact ((live m).mp h).1
  | self _ _ _ _ _ _ _ _ live => exact ((live m).mp h).1
  | output _ _ _ _ _ _ _ live => exact ((live m).mp h).1

theorem BindSteps.live_mono {w w' : World} {bs : List (Nat × String)} {hds : List Nat} (h : BindSteps w w' bs hds) {m : Nat}
    (hm : w'.Live m) : w.Live m := by
  induction h with
  | nil => exact hm
  | cons st _ ih => exact st.live_mono (ih hm)

theorem steps_ranked {K S : Nat} {cls R : Nat → Nat} {N : Nat} (hR : ∀ a, R a < N) {w w' : World} {bs : List (Nat × String)}
    {hds : List Nat} (h : BindSteps w w' bs hds) (hS : ∀ g ∈ w.stack.head?, g.id = S) (hK : ∀ g ∈ w.stack.tail.head?, g.id = K)
    (hp : ∀ gS ∈ w.stack.head?, BindPlan w S K cls (fun s => gS.names.lookup s) bs)
    (hr : Ranked w fun m => cls m * N + R m) (hl : LocalUpTo w fun k => if k = S then K else k) :
    Ranked w' (fun m => cls m * N + R m) ∧ (LocalUpTo w' fun k => if k = S then K else k) ∧
    ∀ gS ∈ w.stack.head?, ∀ b ∈ bs, ∃ n, gS.names.lookup b.2 = some n ∧
      ((w.node n).op ≠ .IN → (w.node b.1).op = .NONE → ¬ w'.Live b.1) := by
  induction h with
  | nil => exact ⟨hr, hl, by simp⟩
  | @cons w w1 w2 b bs hd hds st hsteps ih =>
    have hgS : st.gS.id = S := hS st.gS (by rw [st.stack]; rfl)
    have hgK : st.gK.id = K := hK st.gK (by rw [st.stack]; rfl)
    have pl := hp st.gS (by rw [st.stack]; rfl)
    have hSm : st.gS ∈ w.stack := by rw [st.stack]; simp
    have hKm : st.gK ∈ w.stack := by rw [st.stack]; simp
    have nkern : (w.node st.n).kern = S := by rw [(st.inv.st.own _ hSm _ st.mem).2, hgS]
    have ncls : cls st.n = 1 := pl.sub _ nkern
    have vkern : b.1 ∈ st.gK.nodes → (w.node b.1).kern = K := fun hv => by rw [(st.inv.st.own _ hKm _ hv).2, hgK]
    have hvop : (w.node st.n).op = .OUT → (w.node b.1).op ≠ .CONST := by
      intro hop hco
      cases st.eff with
      | input hop' => rw [hop] at hop'; cases hop'
      | shallow _ _ _ hnone => rw [hnone] at hco; cases hco
      | self _ _ _ hnone => rw [hnone] at hco; cases hco
      | output _ _ _ hout => rw [hout] at hco; cases hco
    -- edges from lower classes to higher ones
    have up : ∀ x y, cls x < cls y → cls x * N + R x < cls y * N + R y := by
      intro x y hxy
      have h1 := hR x
      have h2 : (cls x + 1) * N ≤ cls y * N := Nat.mul_le_mul_right N hxy
      rw [Nat.add_mul, Nat.one_mul] at h2
      omega
    have mono : ∀ x y, w.Edge x y → cls x ≤ cls y := by
      intro x y e
      by_contra hc
      have h1 := hr x y e
      have h2 := up y x (by omega)
      dsimp only at h1
      omega
    have goal3 : (∀ gS ∈ w1.stack.head?, ∀ b ∈ bs, ∃ n, gS.names.lookup b.2 = some n ∧
        ((w1.node n).op ≠ .IN → (w1.node b.1).op = .NONE → ¬ w2.Live b.1)) → ∀ gS ∈ w.stack.head?, ∀ b' ∈ b :: bs,
        ∃ n, gS.names.lookup b'.2 = some n ∧ ((w.node n).op ≠ .IN → (w.node b'.1).op = .NONE → ¬ w2.Live b'.1) := by
      intro ht gS hgS' b' hb'
      rw [st.stack] at hgS'
      simp only [List.head?_cons, Option.mem_some_iff] at hgS'
      subst hgS'
      rcases List.mem_cons.mp hb' with rfl | hb'
      · refine ⟨st.n, st.look, fun hop hnone hlive => ?_⟩
        have hlive := hsteps.live_mono hlive
        have nlive : w.Live st.n := ⟨st.gS, hSm, st.mem⟩
        cases st.eff with
        | input hop' => exact hop hop'
        | shallow c hop' hv hn hvi hin hne hh live => exact ((live _).mp hlive).2.2 rfl
        | self c hop' hv hn hvi hin he hh live =>
          have a1 := mono _ _ ⟨nlive, c, by rw [hin]; simp, he⟩
          have a2 := pl.output b' (by simp) st.n st.look hop (vkern hv) (hvop hop')
          omega
        | output c hop' hv ho => rw [hnone] at ho; cases ho
      · obtain ⟨n, hn, hh⟩ := ht _ (by rw [st.stack']; rfl) b' hb'
        refine ⟨n, (lookup_filter_ne hn).1, fun hop hnone => ?_⟩
        rw [st.same.op, st.same.op] at hh
        exact hh hop hnone
    refine (fun hh => ⟨hh.1, hh.2.1, goal3 hh.2.2⟩) (ih ?_ ?_ ?_ ?_ ?_)
    · intro g hg
      rw [st.stack'] at hg
      simp only [List.head?_cons, Option.mem_some_iff] at hg
      rw [← hg]; exact hgS
    · intro g hg
      rw [st.stack'] at hg
      simp only [List.tail_cons, List.head?_cons, Option.mem_some_iff] at hg
      rw [← hg]; exact hgK
    · intro g hg
      rw [st.stack'] at hg
      simp only [List.head?_cons, Option.mem_some_iff] at hg
      refine ⟨?_, ?_, ?_⟩
      · intro b' hb' n hn hop hk
        rw [← hg] at hn
        obtain ⟨hn', -⟩ := lookup_filter_ne hn
        rw [st.same.op] at hop
        rw [st.same.kern] at hk
        exact pl.input b' (by simp [hb']) n hn' hop hk
      · intro b' hb' n hn hop hk hc
        rw [← hg] at hn
        obtain ⟨hn', -⟩ := lookup_filter_ne hn
        rw [st.same.op] at hop hc
        rw [st.same.kern] at hk
        exact pl.output b' (by simp [hb']) n hn' hop hk hc
      · intro n hk
        rw [st.same.kern] at hk
        exact pl.sub n hk
    · intro x y e
      dsimp only
      obtain ⟨-, h1 | ⟨hop, hx, hv, h1⟩ | ⟨hop, hv, h1, h2⟩⟩ := st.edge e
      · exact hr x y h1
      · apply up
        have a1 := mono _ _ h1
        have a2 := pl.input b (by simp) st.n st.look hop (vkern hv)
        rw [hx]; omega
      · apply up
        have a1 := mono _ _ h1
        have a2 := pl.output b (by simp) st.n st.look (by rw [hop]; simp) (vkern hv) (hvop hop)
        rcases h2 with h2 | h2
        · have a3 := mono _ _ h2; omega
        · rw [h2]; omega
    · constructor
      · intro x y e
        rw [st.same.op, st.same.kern, st.same.kern]
        obtain ⟨-, h1 | ⟨hop, hx, hv, h1⟩ | ⟨hop, hv, h1, h2⟩⟩ := st.edge e
        · exact hl.loc x y h1
        · right
          have a1 := (hl.loc _ _ h1).resolve_left (by rw [hop]; simp)
          rw [nkern, if_pos rfl] at a1
          rw [hx, vkern hv, ← a1]
          split <;> rfl
        · rcases hl.loc _ _ h1 with a1 | a1
          · exact Or.inl a1
          · right
            rw [nkern, if_pos rfl] at a1
            rw [a1]
            have hKf : (if K = S then K else K) = K := by split <;> rfl
            rcases h2 with h2 | h2
            · have a2 := (hl.loc _ _ h2).resolve_left (hvop hop)
              rw [vkern hv, hKf] at a2
              exact a2
            · rw [h2, vkern hv, hKf]
      · intro x y e
        rw [st.same.op]
        obtain ⟨-, h1 | ⟨hop, hx, hv, h1⟩ | ⟨hop, hv, h1, h2⟩⟩ := st.edge e
        · exact hl.constIn x y h1
        · exact hl.constIn _ y h1
        · rcases h2 with h2 | h2
          · exact hl.constIn _ y h2
          · rw [h2]; exact hvop hop

/-! ### Calls -/

theorem transfer_edge {w w' : World} (h : w.transfer = .ok w') (hi : Inv w) : ∃ S K rest, w.stack = S :: K :: rest ∧
    (∀ a b, w'.Edge a b ↔ w.Edge a b) ∧ (∀ m, (w'.node m).op = (w.node m).op) ∧
    (∀ m, w.Live m → (w'.node m).kern = if (w.node m).kern = S.id then K.id else (w.node m).kern) := by
  unfold World.transfer at h
  split at h
  swap
  · cases h
  rename_i S K rest hst
  injection h with h
  have hSm : S ∈ w.stack := by rw [hst]; simp
  refine ⟨S, K, rest, hst, ?_, ?_, ?_⟩
  · intro a b
    have hins : ∀ m, (w'.node m).ins = (w.node m).ins := by intro m; rw [← h]; dsimp only; split <;> rfl
    have hc : w'.chan = w.chan := by rw [← h]
    have hlive : ∀ m, w'.Live m ↔ w.Live m := by
      intro m
      unfold World.Live
      rw [← h, hst]
      simp only [List.mem_cons, exists_eq_or_imp, List.mem_append]
      tauto
    unfold World.Edge
    rw [hlive, hins, hc]
  · intro m; rw [← h]; dsimp only; split <;> rfl
  · intro m hm
    obtain ⟨g, hg, hmg⟩ := hm
    rw [← h]
    dsimp only
    by_cases hmS : m ∈ S.nodes
    · rw [if_pos hmS, if_pos (hi.st.own S hSm m hmS).2]
    · rw [if_neg hmS, if_neg]
      intro hk
      have e := (hi.st.own g hg m hmg).2
      have := eq_of_id hi.st hg hSm (e.symm.trans hk)
      exact hmS (this ▸ hmg)

/-- The stack keeps its kernels during the bindings. -/
theorem BindSteps.ids {w w' : World} {bs : List (Nat × String)} {hds : List Nat} (h : BindSteps w w' bs hds) :
    w'.stack.map KGraph.id = w.stack.map KGraph.id := by
  induction h with
  | nil => rfl
  | cons st _ ih => rw [ih, st.stack', st.stack]; rfl

theorem dep_local {w : World} (h : LocalUpTo w id) {t m : Nat} (d : w.Dep t m) (hc : (w.node t).op ≠ .CONST) :
    (w.node m).kern = (w.node t).kern ∧ (w.node m).op ≠ .CONST := by
  induction d with
  | refl => exact ⟨rfl, hc⟩
  | step _ e ih =>
    have := (h.loc _ _ e).resolve_left ih.2
    exact ⟨this.symm.trans ih.1, h.constIn _ _ e⟩

theorem ainv_init : AInv World.init := by
  refine ⟨⟨fun _ => 0, ?_⟩, ⟨?_, ?_⟩⟩ <;>
  · rintro a b ⟨⟨g, hg, hb⟩, -⟩
    simp only [World.init, List.mem_singleton] at hg
    subst hg
    cases hb

/-- If the edges are the same and fields of live nodes too, nothing changes. -/
theorem AInv.congr {w w' : World} (h : AInv w) (hi : Inv w) (he : ∀ a b, w'.Edge a b ↔ w.Edge a b)
    (hf : ∀ m, m < w.next → FieldsEq (w.node m) (w'.node m)) : AInv w' := by
  obtain ⟨⟨R, hR⟩, hl⟩ := h
  refine ⟨⟨R, fun a b e => hR a b ((he a b).mp e)⟩, ⟨fun a b e => ?_, fun a b e => ?_⟩⟩
  · have e := (he a b).mp e
    have lt := edge_lt hi e
    rw [(hf a lt.1).1, (hf a lt.1).2.2.2.2.2, (hf b lt.2).2.2.2.2.2]
    exact hl.loc a b e
  · have e := (he a b).mp e
    have lt := edge_lt hi e
    rw [(hf b lt.2).1]
    exact hl.constIn a b e

theorem AInv.addNode {w : World} (h : AInv w) (hi : Inv w) {k : Nat} {r : NodeRec} (hk : ∃ g ∈ w.stack, g.id = k) :
    AInv (w.addNode k r) := by
  refine h.congr hi (edge_addNode hi hk) fun m hm => ?_
  rw [addNode_node _ _ _ _ (Nat.ne_of_lt hm)]
  exact .refl _

/-- The bindings of a forward instance: ranks exist, channels stay between the two kernels, bound shallow variables are gone. -/
theorem bindAll_ranked {w w1 : World} {bs : List (Nat × String)} {hds : List Nat} {S K : KGraph} {rest : List KGraph} (hi : Inv w)
    (ha : AInv w) (hst : w.stack = S :: K :: rest) (hfw : Forward w (.endInst bs)) (steps : BindSteps w w1 bs hds) :
    ∃ R, Ranked w1 R ∧ (LocalUpTo w1 fun k => if k = S.id then K.id else k) ∧
      ∀ b ∈ bs, ∃ n, S.names.lookup b.2 = some n ∧ ((w.node n).op ≠ .IN → (w.node b.1).op = .NONE → ¬ w1.Live b.1) := by
  have hids := hi.st.ids
  rw [hst] at hids
  simp only [List.map_cons, List.pairwise_cons, List.mem_cons] at hids
  have hKS : K.id ≠ S.id := Nat.ne_of_lt (hids.1 _ (Or.inl rfl))
  obtain ⟨⟨R, hR⟩, hloc⟩ := ha
  obtain ⟨N, hN⟩ := rank_bound R w.next
  classical
  let T : Nat → Prop := fun t => (w.node t).kern = K.id ∧ (w.node t).op ≠ .CONST ∧
    ∃ b ∈ bs, b.1 = t ∧ ∃ n, S.names.lookup b.2 = some n ∧ (w.node n).op ≠ .IN
  let cls : Nat → Nat := fun m => if ∃ t, T t ∧ w.Dep t m then 2 else if (w.node m).kern = S.id then 1 else 0
  have tdep : ∀ t m, T t → w.Dep t m → (w.node m).kern = K.id := fun t m ht d => (dep_local hloc d ht.2.1).1.trans ht.1
  have plan : BindPlan w S.id K.id cls (fun s => S.names.lookup s) bs := by
    refine ⟨?_, ?_, ?_⟩
    · intro b hb n hn hop hk
      have h1 : ¬ ∃ t, T t ∧ w.Dep t b.1 := by
        rintro ⟨t, ⟨-, -, b', hb', rfl, n', hn', hop'⟩, d⟩
        exact hfw b hb b' hb' n n' ⟨S, K :: rest, hst, hn⟩ ⟨S, K :: rest, hst, hn'⟩ hop hop' d
      show (if _ then 2 else if _ then 1 else 0) = 0
      rw [if_neg h1, if_neg (by rw [hk]; exact hKS)]
    · intro b hb n hn hop hk hco
      show (if _ then 2 else if _ then 1 else 0) = 2
      rw [if_pos ⟨b.1, ⟨hk, hco, b, hb, rfl, n, hn, hop⟩, .refl _⟩]
    · intro n hk
      have h1 : ¬ ∃ t, T t ∧ w.Dep t n := by
        rintro ⟨t, ht, d⟩
        exact hKS ((tdep t n ht d).symm.trans hk)
      show (if _ then 2 else if _ then 1 else 0) = 1
      rw [if_neg h1, if_pos hk]
  have clsmono : ∀ a b, w.Edge a b → cls a ≤ cls b := by
    intro a b e
    show (if _ then 2 else if _ then 1 else 0) ≤ (if _ then 2 else if _ then 1 else 0)
    by_cases h1 : ∃ t, T t ∧ w.Dep t a
    · obtain ⟨t, ht, d⟩ := h1
      have hb : ∃ t, T t ∧ w.Dep t b := ⟨t, ht, .step d e⟩
      rw [if_pos hb]; split <;> (try split) <;> omega
    · rw [if_neg h1]
      by_cases h2 : (w.node a).kern = S.id
      · rw [if_pos h2]
        have hb : (w.node b).kern = S.id := by
          rcases hloc.loc a b e with hco | hk
          · exfalso
            obtain ⟨g, hg, hag⟩ := (edge_live hi e).1
            have e0 := (hi.st.constTop g hg a hag hco).2
            have e1 := (hi.st.own g hg a hag).2
            have e2 := hids.1 _ (Or.inl rfl)
            rw [e1, e0] at h2
            omega
          · exact hk.symm.trans h2
        rw [if_pos hb]; split <;> omega
      · rw [if_neg h2]; omega
  have res := steps_ranked (K := K.id) (S := S.id) (cls := cls) (R := fun a => if a < w.next then R a else 0) (N := N + 1)
    (by
      intro a
      split
      · rename_i ha; have := hN a ha; omega
      · omega) steps
    (by rw [hst]; simp) (by rw [hst]; simp)
    (by
      intro g hg
      rw [hst] at hg
      simp only [List.head?_cons, Option.mem_some_iff] at hg
      rw [← hg]; exact plan)
    (by
      intro a b e
      dsimp only
      have lt := edge_lt hi e
      rw [if_pos lt.1, if_pos lt.2]
      have h1 := hR a b e
      have h2 : cls a * (N + 1) ≤ cls b * (N + 1) := Nat.mul_le_mul_right _ (clsmono a b e)
      omega)
    ⟨fun a b e => (hloc.loc a b e).imp id fun (hk : (w.node a).kern = (w.node b).kern) => by rw [hk], hloc.constIn⟩
  exact ⟨_, res.1, res.2.1, res.2.2 S (by rw [hst]; rfl)⟩

theorem ainv_exec {F : FloatOps} {w w' : World} {cmd : Cmd} {rs : List Nat} (hi : Inv w) (ha : AInv w) (hc : Clean w cmd)
    (hfw : Forward w cmd) (h : w.exec F cmd = .ok (w', rs)) : AInv w' := by
  cases exec_shape h with
  | new op ty sc name hop e _ => subst e; exact ha.addNode hi (cur_mem hi.st)
  | const ty v n hh _ _ _ =>
    obtain ⟨hk, g, -, (⟨rfl, -⟩ | ⟨-, -, rfl⟩)⟩ := createOrUseConst_ok hh
    · exact ha
    · exact ha.addNode hi hk
  | op k op data ty l n hop' _ hh hl =>
    have hop := hop'.isOp
    have hlt : ∀ a ∈ l, a < w.next := by rw [hl]; exact exec_vars h
    obtain ⟨-, hk, -, eop, ekern, hf, he, hs, -⟩ := newOp_effect hi hop.1 hh hlt
    obtain ⟨⟨R, hR⟩, hloc⟩ := ha
    refine ⟨⟨fun m => if m = w.next then (l.map R).sum + 1 else R m, fun a b e => ?_⟩, ⟨fun a b e => ?_, fun a b e => ?_⟩⟩
    · dsimp only
      rcases (he a b).mp e with e | ⟨hal, rfl⟩
      · have lt := edge_lt hi e
        rw [if_neg (Nat.ne_of_lt lt.1), if_neg (Nat.ne_of_lt lt.2)]
        exact hR a b e
      · rw [if_neg (Nat.ne_of_lt (hlt a hal)), if_pos rfl]
        have := sum_ge R l a hal
        omega
    · rcases (he a b).mp e with e | ⟨hal, rfl⟩
      · have lt := edge_lt hi e
        have fa := hf a (Nat.ne_of_lt lt.1)
        have fb := hf b (Nat.ne_of_lt lt.2)
        rw [fa.1, fa.2.2.2.2.2, fb.2.2.2.2.2]
        exact hloc.loc a b e
      · have fa := hf a (Nat.ne_of_lt (hlt a hal))
        rw [fa.1, fa.2.2.2.2.2, ekern]
        exact (hs a hal).2
    · rcases (he a b).mp e with e | ⟨hal, rfl⟩
      · have lt := edge_lt hi e
        rw [(hf b (Nat.ne_of_lt lt.2)).1]
        exact hloc.constIn a b e
      · rw [eop]; exact hop.1
  | same a e _ _ _ => exact e ▸ ha
  | connect a b hh =>
    have hs := addChannel_source hi hh
    obtain ⟨e, lb, la⟩ := addChannel_live hh
    have he := edge_link hi (s := b) (i := 0) (f := true) la
    have hf : ∀ m, FieldsEq (w.node m) (w'.node m) := by
      intro m
      obtain ⟨a1, b1, c1, d1, e1, f1⟩ := link_fields w b a 0 true m
      rw [e]; exact ⟨a1, f1, e1, b1, d1, c1⟩
    rw [← e] at he
    obtain ⟨⟨R, hR⟩, hloc⟩ := ha
    obtain ⟨hnc, hnd⟩ := hfw
    refine ⟨?_, ⟨fun x y exy => ?_, fun x y exy => ?_⟩⟩
    · classical
      refine ⟨fun m => if w.Dep a m then R m + (R b + 1) else R m, fun x y exy => ?_⟩
      dsimp only
      rcases (he x y).mp exy with exy | ⟨rfl, rfl⟩
      · have h1 := hR x y exy
        by_cases hx : w.Dep a x
        · rw [if_pos hx, if_pos (.step hx exy)]; omega
        · rw [if_neg hx]; split <;> omega
      · rw [if_neg hnd, if_pos (.refl _)]; omega
    · rw [(hf x).1, (hf x).2.2.2.2.2, (hf y).2.2.2.2.2]
      rcases (he x y).mp exy with exy | ⟨rfl, rfl⟩
      · exact hloc.loc x y exy
      · exact hs.1
    · rw [(hf y).1]
      rcases (he x y).mp exy with exy | ⟨rfl, rfl⟩
      · exact hloc.constIn x y exy
      · exact hnc
  | begin e =>
    refine ha.congr hi (fun a b => ?_) (fun m _ => by rw [e]; exact .refl _)
    rw [e]
    unfold World.Edge World.Live
    simp
  | inst bs S K rest hst w1 _ h1 h2 =>
    have steps := bindAll_steps bs w w1 S K rest _ hi hst (clean_lookup hst hc) h1
    have hi1 := steps.inv hi
    have hids := hi.st.ids
    rw [hst] at hids
    simp only [List.map_cons, List.pairwise_cons, List.mem_cons] at hids
    have hKS : K.id ≠ S.id := Nat.ne_of_lt (hids.1 _ (Or.inl rfl))
    obtain ⟨R', hr, hl, -⟩ := bindAll_ranked hi ha hst hfw steps
    obtain ⟨S', K', rest', hst', he, hop, hk⟩ := transfer_edge h2 hi1
    have hid := steps.ids
    rw [hst, hst'] at hid
    simp only [List.map_cons, List.cons.injEq] at hid
    refine ⟨⟨R', fun a b e => hr a b ((he a b).mp e)⟩, ⟨fun a b e => ?_, fun a b e => ?_⟩⟩
    · have e := (he a b).mp e
      have lv := edge_live hi1 e
      rw [hop, hk a lv.1, hk b lv.2, hid.1, hid.2.1]
      exact hl.loc a b e
    · rw [hop]; exact hl.constIn a b ((he a b).mp e)

/-- Clean and forward calls. -/
def Good (w : World) (c : Cmd) : Prop := Clean w c ∧ Forward w c

theorem good_hist {F : FloatOps} {w : World} (h : Hist F Good World.init w) : Inv w ∧ AInv w := by
  induction h with
  | nil => exact ⟨inv_init, ainv_init⟩
  | snoc c _ hp he ih =>
    obtain ⟨hi, ha⟩ := ih
    exact ⟨inv_exec hi hp.1 he, ainv_exec hi ha hp.1 hp.2 he⟩

/-- **C03** (acyclicity): if connections and bindings only go forward, no node ever depends on itself. -/
theorem api_graph_acyclic {F : FloatOps} {w : World} (h : Hist F Good World.init w) : w.Acyclic := by
  obtain ⟨R, hR⟩ := (good_hist h).2.ranked
  exact hR.acyclic

end Verif.Dfcxx
