import Verif.Dfcxx.WorldNodes
import Verif.Dfcxx.DfcirProps
import Verif.TopSort.Props
/-
C11, C12 and the link from histories of calls to the ordering, simulation and translation theorems.
-/
namespace Verif.Dfcxx

/-! ### Shallow variables (C12) -/

theorem BindSteps.live_none {w w' : World} {bs : List (Nat × String)} {hds : List Nat} (h : BindSteps w w' bs hds) {v : Nat}
    (hv : w.Live v) (ho : (w.node v).op = .NONE)
    (hnd : ∀ gS ∈ w.stack.head?, ∀ b ∈ bs, ∀ n, gS.names.lookup b.2 = some n → (w.node n).op ≠ .IN → b.1 ≠ v) :
    w'.Live v ∧ (w'.node v).op = .NONE := by
  induction h with
  | nil => exact ⟨hv, ho⟩
  | @cons w w1 w2 b bs hd hds st _ ih =>
    have hne : ∀ x, (w.node x).op ≠ .NONE → v ≠ x := by rintro x hx rfl; exact hx ho
    have hb := hnd st.gS (by rw [st.stack]; rfl) b (by simp) st.n st.look
    apply ih
    · cases st.eff with
      | input hop _ _ live => exact (live v).mpr ⟨hv, hne _ (by rw [hop]; simp)⟩
      | shallow _ hop _ hnone _ _ _ _ live =>
        exact (live v).mpr ⟨hv, hne _ (by rw [hop]; simp), fun e => hb (by rw [hop]; simp) e.symm⟩
      | self _ hop _ _ _ _ _ _ live => exact (live v).mpr ⟨hv, hne _ (by rw [hop]; simp)⟩
      | output _ hop _ _ _ _ _ live => exact (live v).mpr ⟨hv, hne _ (by rw [hop]; simp)⟩
    · rw [st.same.op]; exact ho
    · intro g hg b' hb' n hn hop
      rw [st.stack'] at hg
      simp only [List.head?_cons, Option.mem_some_iff] at hg
      rw [← hg] at hn
      rw [st.same.op] at hop
      exact hnd st.gS (by rw [st.stack]; rfl) b' (by simp [hb']) n (lookup_filter_ne hn).1 hop

theorem exec_none_live {F : FloatOps} {w w' : World} {cmd : Cmd} {rs : List Nat} (hi : Inv w) (hc : Clean w cmd) {v : Nat}
    (hnd : NotDefining v w cmd) (h : w.exec F cmd = .ok (w', rs)) (hm : w.Live v) (ho : (w.node v).op = .NONE) :
    w'.Live v ∧ (w'.node v).op = .NONE := by
  have key : w'.Live v := by
    by_cases he : ∃ bs, cmd = .endInst bs
    swap
    · exact exec_live hi (fun bs e => he ⟨bs, e⟩) h hm
    obtain ⟨bs, rfl⟩ := he
    cases exec_shape h with
    | inst _ S K rest hst w1 _ h1 h2 =>
      have steps := bindAll_steps bs w w1 S K rest _ hi hst (clean_lookup hst hc) h1
      rw [(transfer_same h2).2.2.1]
      refine (steps.live_none hm ho ?_).1
      intro g hg b hb n hn hop
      rw [hst] at hg
      simp only [List.head?_cons, Option.mem_some_iff] at hg
      subst hg
      exact hnd bs rfl b hb n ⟨S, K :: rest, hst, hn⟩ hop
    | new o ty sc name ho e hc => simp at hc
    | const ty v n hh hs _ _ => cases hs
    | op k o data ty l n ho hcr hh hl => cases hcr
    | same x e hs _ _ => cases hs
  exact ⟨key, (exec_old hi hc h key (live_lt hi.st hm)).2.1.trans ho⟩

/-- A variable is shallow exactly if it was declared by `newStream`/`newScalar` and not bound to an output of an instance
since. -/
theorem shallow_iff {F : FloatOps} {w : World} (h : Hist F WellUsed World.init w) (v : Nat) :
    (w.Live v ∧ (w.node v).op = .NONE) ↔
      ∃ w1 w2 sc ty, Hist F WellUsed World.init w1 ∧ w1.exec F (.newVar sc ty) = .ok (w2, [v]) ∧
        Hist F (fun w c => WellUsed w c ∧ NotDefining v w c) w2 w := by
  constructor
  · induction h with
    | nil =>
      rintro ⟨⟨g, hg, hn⟩, -⟩
      simp only [World.init, List.mem_singleton] at hg
      subst hg; cases hn
    | @snoc wa wb rs c hh hp he ih =>
      rintro ⟨hl, ho⟩
      obtain ⟨hi, ha⟩ := good_hist (good_of_wellUsed hh)
      by_cases hlt : v < wa.next
      · obtain ⟨l1, o1, -⟩ := exec_old hi hp.clean he hl hlt
        obtain ⟨w1, w2, sc, ty, h1, h2, h3⟩ := ih ⟨l1, o1.symm.trans ho⟩
        refine ⟨w1, w2, sc, ty, h1, h2, .snoc c h3 ⟨hp, ?_⟩ he⟩
        rintro bs rfl b hb n hn hop e
        subst e
        exact endInst_defines hi ha hp.clean hp.forward he hb hn hop (o1.symm.trans ho) hl
      · obtain ⟨e1, e2, hk⟩ := exec_new hi hp.clean he hl (Nat.not_lt.mp hlt)
        rcases hk with ⟨sc, nm, t, -, ⟨-, ho'⟩ | ⟨-, ho'⟩ | ⟨hc, -⟩⟩ | ⟨t, u, -, ho', -⟩ | ⟨op, d, t, ho', -, -, hs, -⟩
        · rw [ho] at ho'; cases ho'
        · rw [ho] at ho'; cases ho'
        · subst hc
          subst e2
          exact ⟨wa, wb, sc, t, hh, he, .nil _⟩
        · rw [ho] at ho'; cases ho'
        · exact absurd (ho'.symm.trans ho) hs.isOp.2.2.2
  · rintro ⟨w1, w2, sc, ty, h1, h2, h3⟩
    obtain ⟨hi, ha⟩ := good_hist (good_of_wellUsed h1)
    have hc : Clean w1 (.newVar sc ty) := trivial
    have i2 := inv_exec hi hc h2
    have start : w2.Live v ∧ (w2.node v).op = .NONE := by
      cases exec_shape h2 with
      | new op t s name hop e hcm =>
        simp only [reduceCtorEq, Cmd.newVar.injEq, false_and, false_or] at hcm
        subst e
        refine ⟨(live_addNode _ _ _ (cur_mem hi.st) _).mpr (Or.inl rfl), ?_⟩
        rw [addNode_new]; exact hcm.2.1
      | const t v n hh _ hcr hcc =>
        exfalso
        unfold World.exec at h2
        simp only [Cmd.vars, List.not_mem_nil, false_and, exists_false, if_false] at h2
        injection h2 with h2
        injection h2 with h2 h4
        injection h4 with h4
        obtain ⟨-, g, -, (⟨e, -⟩ | ⟨-, -, e⟩)⟩ := createOrUseConst_ok hh
        · have := congrArg World.next (h2.trans e)
          simp [World.addNode] at this
        · have := congrArg (fun w => ((World.node w w1.next).op)) (h2.trans e)
          simp [addNode_new] at this
      | op k o data t l n ho hcr hh hl => cases hcr
      | same x e _ hcr hcc =>
        exfalso
        unfold World.exec at h2
        simp only [Cmd.vars, List.not_mem_nil, false_and, exists_false, if_false] at h2
        injection h2 with h2
        injection h2 with h2 h4
        have := congrArg World.next (h2.trans e)
        simp [World.addNode] at this
    clear h2 h1 hi ha h hc
    suffices hh : Inv w ∧ w.Live v ∧ (w.node v).op = .NONE from hh.2
    induction h3 with
    | nil => exact ⟨i2, start⟩
    | snoc c _ hp he ih =>
      obtain ⟨j1, j2, j3⟩ := ih
      exact ⟨inv_exec j1 hp.1.clean he, exec_none_live j1 hp.1.clean hp.2 he j2 j3⟩

/-- **C12.** The pre-compilation check fails exactly if some variable was declared without a definition (`newStream`,
`newScalar`) and never bound to an output of an instance. -/
theorem check_fails_iff {F : FloatOps} {w : World} {g : KGraph} (h : Hist F WellUsed World.init w) (hg : w.stack = [g]) :
    w.check g = false ↔ ∃ v w1 w2 sc ty, Hist F WellUsed World.init w1 ∧ w1.exec F (.newVar sc ty) = .ok (w2, [v]) ∧
      Hist F (fun w c => WellUsed w c ∧ NotDefining v w c) w2 w := by
  have hl : ∀ v, w.Live v ↔ v ∈ g.nodes := by intro v; unfold World.Live; rw [hg]; simp
  unfold World.check
  rw [List.all_eq_false]
  constructor
  · rintro ⟨v, hv, ho⟩
    obtain ⟨w1, w2, sc, ty, hh⟩ := (shallow_iff h v).mp ⟨(hl v).mpr hv, by simpa using ho⟩
    exact ⟨v, w1, w2, sc, ty, hh⟩
  · rintro ⟨v, w1, w2, sc, ty, hh⟩
    obtain ⟨a, b⟩ := (shallow_iff h v).mpr ⟨w1, w2, sc, ty, hh⟩
    exact ⟨v, (hl v).mp a, by simp [b]⟩

/-! ### Shape of the nodes -/

/-- Nodes of a graph under construction. -/
structure NodeOK (v : NodeV) : Prop where
  flags  : v.op ≠ .OUT → v.op ≠ .NONE → ∀ p ∈ v.ins, p.2 = false
  flagsT : v.op = .OUT ∨ v.op = .NONE → ∀ p ∈ v.ins, p.2 = true
  source : v.op = .IN ∨ v.op = .CONST → v.ins = []
  const  : v.op = .CONST → ∃ c, v.kind = .const c
  mux    : v.op = .MUX → v.data = .muxId 0 ∧ 2 ≤ v.ins.length
  unary  : v.op ∈ [.NOT, .NEG, .CAST, .OFFSET, .SHL, .SHR, .BITS] → v.ins.length = 1
  binary : v.op ∈ [.ADD, .SUB, .MUL, .DIV, .AND, .OR, .XOR, .LESS, .LESSEQ, .GREATER, .GREATEREQ, .EQ, .NEQ, .CAT] →
    v.ins.length = 2
  offset : v.op = .OFFSET → ∃ o, v.data = .offset o
  shift  : v.op ∈ [.SHL, .SHR] → ∃ k, v.data = .bitShift k
  bits   : v.op = .BITS → ∃ l r, v.data = .bitsRange l r
  comp   : v.op.isComparison = true → v.ty = buildBool

theorem NodeOK.subst {v v' : NodeV} (h : NodeOK v) {σ : Nat → Nat} (ho : v'.op = v.op) (hd : v'.data = v.data) (ht : v'.ty = v.ty)
    (hk : v'.kind = v.kind) (hi : v'.ins = v.ins.map fun p => (σ p.1, p.2)) : NodeOK v' := by
  constructor
  · rw [ho, hi]
    intro h1 h2 p hp
    simp only [List.mem_map] at hp
    obtain ⟨q, hq, rfl⟩ := hp
    exact h.flags h1 h2 q hq
  · rw [ho, hi]
    intro h1 p hp
    simp only [List.mem_map] at hp
    obtain ⟨q, hq, rfl⟩ := hp
    exact h.flagsT h1 q hq
  · rw [ho, hi]; intro h1; rw [h.source h1]; rfl
  · rw [ho, hk]; exact h.const
  · rw [ho, hd, hi]; intro h1; exact ⟨(h.mux h1).1, by simpa using (h.mux h1).2⟩
  · rw [ho, hi, List.length_map]; exact h.unary
  · rw [ho, hi, List.length_map]; exact h.binary
  · rw [ho, hd]; exact h.offset
  · rw [ho, hd]; exact h.shift
  · rw [ho, hd]; exact h.bits
  · rw [ho, ht]; exact h.comp

theorem NodeOK.ofOut {v : NodeV} (ho : v.op = .OUT ∨ v.op = .NONE) (hf : ∀ p ∈ v.ins, p.2 = true) : NodeOK v := by
  refine ⟨?_, fun _ => hf, ?_, ?_, ?_, ?_, ?_, ?_, ?_, ?_, ?_⟩
  · intro h1 h2; exact absurd ho (by tauto)
  all_goals rcases ho with ho | ho <;> simp [ho, OpType.isComparison]

theorem NodeOK.ofIn {v : NodeV} (ho : v.op = .IN) (hf : v.ins = []) : NodeOK v := by
  constructor <;> simp [ho, hf, OpType.isComparison]

theorem NodeOK.ofConst {v : NodeV} {c : Word} (ho : v.op = .CONST) (hk : v.kind = .const c) (hf : v.ins = []) : NodeOK v := by
  constructor <;> simp [ho, hf, hk, OpType.isComparison]

theorem NodeOK.ofOp {w : World} {v : NodeV} {l : List Nat} (h : OpShape w v.op v.data v.ty l) (hf : v.ins = l.map fun a => (a, false)) :
    NodeOK v := by
  obtain ⟨h0, h1, h2, h3, h4, h5, h6, h7⟩ := h
  constructor
  · intro _ _ p hp
    rw [hf] at hp
    simp only [List.mem_map] at hp
    obtain ⟨a, -, rfl⟩ := hp
    rfl
  · rintro (e | e)
    · exact absurd e h0.2.2.1
    · exact absurd e h0.2.2.2
  · rintro (e | e)
    · exact absurd e h0.2.1
    · exact absurd e h0.1
  · intro e; exact absurd e h0.1
  · intro e; rw [hf]; exact ⟨(h1 e).1, by simpa using (h1 e).2⟩
  · intro e; obtain ⟨s, hs⟩ := h2 e; rw [hf, hs]; rfl
  · intro e; obtain ⟨s, t, hs⟩ := h3 e; rw [hf, hs]; rfl
  · intro e; exact (h4 e).1
  · exact h5
  · exact h6
  · exact h7

/-- The node invariant: shapes; and the types at outputs, shallow variables and offsets, for typed histories. -/
def NInv (w : World) : Prop := ∀ m, w.Live m → NodeOK (w.view m)
def TInv (w : World) : Prop := ∀ m, w.Live m → (w.node m).op = .OUT ∨ (w.node m).op = .NONE ∨ (w.node m).op = .OFFSET →
  ∀ p ∈ insV w m, (w.node p.1).ty = (w.node m).ty

theorem BindStep.nodes {w w' : World} {b : Nat × String} {hd : Nat} (st : BindStep w w' b hd) (h : NInv w) : NInv w' := by
  obtain ⟨σ, -, -, h3⟩ := st.insV
  intro m hm
  have hm0 := st.live_mono hm
  rcases h3 m hm with e | ⟨-, ho, ho', -, e, -⟩
  · exact (h m hm0).subst (st.same.op m) (st.same.data m) (st.same.ty m) (st.same.kind m) e
  · refine .ofOut (Or.inl ((st.same.op m).trans ho)) ?_
    rw [view_ins, e]
    exact (h st.n ⟨st.gS, by rw [st.stack]; simp, st.mem⟩).flagsT (Or.inl ho')

theorem BindStep.types {w w' : World} {b : Nat × String} {hd : Nat} (st : BindStep w w' b hd) (h : TInv w)
    (hty : (w.node b.1).ty = (w.node st.n).ty) : TInv w' := by
  obtain ⟨σ, -, h2, h3⟩ := st.insV
  have nlive : w.Live st.n := ⟨st.gS, by rw [st.stack]; simp, st.mem⟩
  have hσ : ∀ x, (w.node (σ x)).ty = (w.node x).ty := by
    intro x
    rcases h2 x with e | ⟨e, -, e2⟩ | ⟨e, ho, -, f, hf⟩
    · rw [e]
    · rw [e2, e, hty]
    · have := h st.n nlive (Or.inl ho) (σ x, f) (by rw [hf]; simp)
      rw [e, hty]
      rw [e] at this
      exact this
  intro m hm hop p hp
  have hm0 := st.live_mono hm
  rw [st.same.op] at hop
  rw [st.same.ty, st.same.ty]
  rcases h3 m hm with e | ⟨e1, ho, ho', -, e, -⟩
  · rw [e] at hp
    simp only [List.mem_map] at hp
    obtain ⟨q, hq, rfl⟩ := hp
    rw [hσ]
    exact h m hm0 hop q hq
  · rw [e] at hp
    rw [h st.n nlive (Or.inl ho') p hp, e1, hty]

theorem BindSteps.types {w w' : World} {bs : List (Nat × String)} {hds : List Nat} (hs : BindSteps w w' bs hds) (h : TInv w)
    (hty : ∀ gS ∈ w.stack.head?, ∀ b ∈ bs, ∀ n, gS.names.lookup b.2 = some n → (w.node b.1).ty = (w.node n).ty) : TInv w' := by
  induction hs with
  | nil => exact h
  | @cons w w1 w2 b bs hd hds st _ ih =>
    apply ih (st.types h (hty st.gS (by rw [st.stack]; rfl) b (by simp) st.n st.look))
    intro g hg b' hb' n hn
    rw [st.stack'] at hg
    simp only [List.head?_cons, Option.mem_some_iff] at hg
    rw [← hg] at hn
    rw [st.same.ty, st.same.ty]
    exact hty st.gS (by rw [st.stack]; rfl) b' (by simp [hb']) n (lookup_filter_ne hn).1

theorem BindSteps.nodes {w w' : World} {bs : List (Nat × String)} {hds : List Nat} (hs : BindSteps w w' bs hds) (h : NInv w) :
    NInv w' := by
  induction hs with
  | nil => exact h
  | cons st _ ih => exact ih (st.nodes h)

theorem ninv_exec {F : FloatOps} {w w' : World} {cmd : Cmd} {rs : List Nat} (hi : Inv w) (hn : NInv w) (hc : Clean w cmd)
    (hs : Sane w cmd) (h : w.exec F cmd = .ok (w', rs)) : NInv w' := by
  intro m hm
  by_cases hlt : m < w.next
  · obtain ⟨σ, -, k⟩ := exec_keeps hi hc hs h
    obtain ⟨k1, k2, k3, k4, k5, k6⟩ := k m hm hlt
    have old := hn m k1
    by_cases ho : (w.node m).op = .OUT ∨ (w.node m).op = .NONE
    swap
    · have ho : (w.node m).op ≠ .OUT ∧ (w.node m).op ≠ .NONE := by tauto
      exact old.subst k2 k3 k4 k5 (k6 ho.1 ho.2)
    · -- outputs and shallow variables
      have hT : ∀ p ∈ insV w m, p.2 = true := old.flagsT ho
      have fin : (∀ p ∈ insV w' m, p.2 = true) → NodeOK (w'.view m) := fun hh =>
        .ofOut (by
          show (w'.node m).op = .OUT ∨ (w'.node m).op = .NONE
          rw [k2]; exact ho) hh
      cases exec_shape h with
      | new op ty sc name hop e _ =>
        subst e
        apply fin
        rw [insV_addNode, if_neg (Nat.ne_of_lt hlt)]; exact hT
      | const ty v n hh _ _ _ =>
        obtain ⟨hk, g, -, (⟨rfl, -⟩ | ⟨-, -, rfl⟩)⟩ := createOrUseConst_ok hh
        · exact old
        · apply fin
          rw [insV_addNode, if_neg (Nat.ne_of_lt hlt)]; exact hT
      | op k op data ty l n hop _ hh hl =>
        apply fin
        rw [insV_newOp hi hop.isOp.1 hh m (Or.inl k1), if_neg (Nat.ne_of_lt hlt)]; exact hT
      | same a e _ _ _ => subst e; exact old
      | connect a b hh =>
        obtain ⟨e, -, -⟩ := addChannel_live hh
        subst e
        apply fin
        rw [insV_link hi k1]
        split
        · intro p hp
          simp only [List.mem_append, List.mem_singleton] at hp
          rcases hp with hp | rfl
          · exact hT p hp
          · rfl
        · exact hT
      | begin e => subst e; exact old
      | inst bs S K rest hst w1 _ h1 h2 =>
        have steps := bindAll_steps bs w w1 S K rest _ hi hst (clean_lookup hst hc) h1
        have n1 : NInv w1 := steps.nodes hn
        apply fin
        rw [transfer_insV h2]
        have := (n1 m (((transfer_same h2).2.2.1 m).mp hm)).flagsT (by
          show (w1.node m).op = .OUT ∨ (w1.node m).op = .NONE
          rw [← ((transfer_same h2).2.2.2 m).1, k2]; exact ho)
        exact this
  · obtain ⟨e1, e2, hk⟩ := exec_new hi hc h hm (Nat.not_lt.mp hlt)
    rcases hk with ⟨sc, nm, t, hz, ⟨-, ho⟩ | ⟨-, ho⟩ | ⟨-, ho⟩⟩ | ⟨t, u, hz, ho, -, hv, -⟩ | ⟨op, d, t, ho, hd, ht, hs, hz⟩
    · exact .ofIn ho hz
    · exact .ofOut (Or.inl ho) (by rw [view_ins, hz]; simp)
    · exact .ofOut (Or.inr ho) (by rw [view_ins, hz]; simp)
    · exact .ofConst ho hv hz
    · subst ho; subst hd; subst ht
      exact .ofOp (v := w'.view m) hs hz

end Verif.Dfcxx
