import Verif.Dfcxx.WorldAcyclic
import Verif.Dfcxx.TypesProps
/-
What happens to the operands of a node (C04), to constants (C05) and to shallow variables (C12).
-/
namespace Verif.Dfcxx

/-- Operands of a node with their kinds. -/
def insV (w : World) (m : Nat) : List (Nat × Bool) := (w.node m).ins.map fun c => ((w.chan c).src, (w.chan c).connect)

theorem view_ins (w : World) (m : Nat) : (w.view m).ins = insV w m := rfl

theorem insV_link {w : World} (hi : Inv w) {s t i : Nat} {f : Bool} {m : Nat} (hm : w.Live m) :
    insV (w.link s t i f) m = if m = t then insV w m ++ [(s, f)] else insV w m := by
  have old : (w.node m).ins.map (fun c => (((w.link s t i f).chan c).src, ((w.link s t i f).chan c).connect)) = insV w m := by
    apply List.map_congr_left
    intro c hc
    rw [link_chan_old _ _ _ _ _ (hi.ch.inn m hm c hc).1]
  unfold insV
  rw [link_ins]
  split
  · rw [List.map_append, old]
    simp [link_chan_new, insV]
  · exact old

theorem insV_addNode (w : World) (k : Nat) (r : NodeRec) (m : Nat) :
    insV (w.addNode k r) m = if m = w.next then [] else insV w m := by
  unfold insV
  split
  · rename_i h; subst h; rw [addNode_new]; rfl
  · rename_i h; rw [addNode_node _ _ _ _ h]; rfl

theorem insV_addOperands (k t : Nat) : ∀ (l : List Nat) (i : Nat) (w w' : World), Inv w → w.addOperands k t i l = .ok w' →
    ∀ m, w.Live m → insV w' m = if m = t then insV w m ++ l.map (fun a => (a, false)) else insV w m
  | [], _, w, w', _, h, m, _ => by
    unfold World.addOperands at h
    injection h with h
    subst h
    simp
  | x :: rest, i, w, w', hi, h, m, hm => by
    unfold World.addOperands at h
    obtain ⟨w1, h1, h2⟩ := bind_ok h
    obtain ⟨e, -, -⟩ := addChannel_live h1
    have hm1 : w1.Live m := by rw [e]; exact hm
    rw [insV_addOperands k t rest (i + 1) w1 w' (inv_addChannel hi h1) h2 m hm1, e, insV_link hi hm]
    split <;> simp

theorem insV_newOp {w w' : World} {k n : Nat} {op : OpType} {data : NodeData} {ty : DFType} {l : List Nat} (hi : Inv w)
    (hop : op ≠ .CONST) (h : w.newOp k op data ty l = .ok (w', n)) (m : Nat) (hm : w.Live m ∨ m = w.next) :
    insV w' m = if m = w.next then l.map (fun a => (a, false)) else insV w m := by
  obtain ⟨e, hk, h⟩ := newOp_ok h
  have hi1 : Inv (w.addNode k ⟨op, data, ty, .stream, "", k, [], []⟩) := by
    refine inv_addNode hi k _ hk ?_ ?_ ?_
    · simp [hop, VarKind.isConst]
    · intro e; exact absurd e hop
    · intro e; exact absurd rfl e
  rw [insV_addOperands _ _ _ _ _ _ hi1 h m ((live_addNode w k _ hk m).mpr hm.symm), insV_addNode]
  split <;> simp

theorem newOp_fields {w w' : World} {k n : Nat} {op : OpType} {data : NodeData} {ty : DFType} {l : List Nat} (hi : Inv w)
    (hop : op ≠ .CONST) (h : w.newOp k op data ty l = .ok (w', n)) :
    (w'.node w.next).op = op ∧ (w'.node w.next).data = data ∧ (w'.node w.next).ty = ty ∧ (w'.node w.next).kind = .stream ∧
      (w'.node w.next).name = "" := by
  obtain ⟨e, hk, h⟩ := newOp_ok h
  have hi1 : Inv (w.addNode k ⟨op, data, ty, .stream, "", k, [], []⟩) := by
    refine inv_addNode hi k _ hk ?_ ?_ ?_
    · simp [hop, VarKind.isConst]
    · intro e; exact absurd e hop
    · intro e; exact absurd rfl e
  have f := (addOperands_effect _ _ _ _ _ _ hi1 h).fields w.next
  rw [addNode_new] at f
  exact ⟨f.1, f.2.1, f.2.2.1, f.2.2.2.1, f.2.2.2.2.1⟩

/-- Operands after one binding. -/
theorem BindStep.insV {w w' : World} {b : Nat × String} {hd : Nat} (st : BindStep w w' b hd) :
    ∃ σ : Nat → Nat, (∀ x, w'.Live x → σ x = x) ∧
      (∀ x, σ x = x ∨ (x = st.n ∧ (w.node st.n).op = .IN ∧ σ x = b.1) ∨
        (x = b.1 ∧ (w.node st.n).op = .OUT ∧ (w.node x).op = .NONE ∧ ∃ f, insV w st.n = [(σ x, f)])) ∧
      ∀ m, w'.Live m → insV w' m = (insV w m).map (fun p => (σ p.1, p.2)) ∨
        (m = b.1 ∧ (w.node m).op = .OUT ∧ (w.node st.n).op = .OUT ∧ insV w m = [] ∧ insV w' m = insV w st.n ∧ ∀ x, σ x = x) := by
  have nlive : w.Live st.n := ⟨st.gS, by rw [st.stack]; simp, st.mem⟩
  -- the sources as a substitution
  have conv : ∀ (σ : Nat → Nat) (m : Nat), w.Live m → (w'.node m).ins = (w.node m).ins →
      (∀ c ∈ (w.node m).ins, (w'.chan c).src = σ (w.chan c).src) →
      Verif.Dfcxx.insV w' m = (Verif.Dfcxx.insV w m).map (fun p => (σ p.1, p.2)) := by
    intro σ m hm hins hs
    unfold Verif.Dfcxx.insV
    rw [hins, List.map_map]
    apply List.map_congr_left
    intro c hc
    simp only [Function.comp]
    rw [hs c hc, st.same.connect]
  cases st.eff with
  | input hop hv hh live ins outs src =>
    refine ⟨fun x => if x = st.n then b.1 else x, ?_, ?_, ?_⟩
    · intro x hx; dsimp only; rw [if_neg ((live x).mp hx).2]
    · intro x
      by_cases hx : x = st.n
      · right; left; exact ⟨hx, hop, if_pos hx⟩
      · left; exact if_neg hx
    · intro m hm
      left
      refine conv (fun x => if x = st.n then b.1 else x) m ((live m).mp hm).1 (ins m) fun c hc => ?_
      rw [src]
      obtain ⟨-, -, -, h4⟩ := st.inv.ch.inn m ((live m).mp hm).1 c hc
      by_cases hcn : c ∈ (w.node st.n).outs
      · rw [if_pos hcn, if_pos (st.inv.ch.out st.n nlive c hcn).2.1]
      · rw [if_neg hcn, if_neg]
        intro e; rw [e] at h4; exact hcn h4
  | shallow d hop hv hnone hvi hin hne hh live ins outs src =>
    have vlive : w.Live b.1 := ⟨st.gK, by rw [st.stack]; simp, hv⟩
    refine ⟨fun x => if x = b.1 then (w.chan d).src else x, ?_, ?_, ?_⟩
    · intro x hx; dsimp only; rw [if_neg ((live x).mp hx).2.2]
    · intro x
      by_cases hx : x = b.1
      · right; right
        refine ⟨hx, hop, hx ▸ hnone, (w.chan d).connect, ?_⟩
        unfold Verif.Dfcxx.insV
        rw [hin]
        simp [hx]
      · left; exact if_neg hx
    · intro m hm
      left
      refine conv (fun x => if x = b.1 then (w.chan d).src else x) m ((live m).mp hm).1 (ins m) fun c hc => ?_
      rw [src]
      obtain ⟨-, -, -, h4⟩ := st.inv.ch.inn m ((live m).mp hm).1 c hc
      by_cases hcn : c ∈ (w.node b.1).outs
      · rw [if_pos hcn, if_pos (st.inv.ch.out b.1 vlive c hcn).2.1]
      · rw [if_neg hcn, if_neg]
        intro e; rw [e] at h4; exact hcn h4
  | self d hop hv hnone hvi hin he hh live ins outs src =>
    refine ⟨id, fun _ _ => rfl, fun x => Or.inl rfl, fun m hm => ?_⟩
    left
    exact conv id m ((live m).mp hm).1 (ins m) fun c _ => src c
  | output d hop hv hout hvi hin hh live ins outs src =>
    refine ⟨id, fun _ _ => rfl, fun x => Or.inl rfl, fun m hm => ?_⟩
    by_cases hmv : m = b.1
    · right
      refine ⟨hmv, hmv ▸ hout, hop, ?_, ?_, fun _ => rfl⟩
      · unfold Verif.Dfcxx.insV; rw [hmv, hvi]; rfl
      · unfold Verif.Dfcxx.insV
        rw [ins, if_pos hmv, hin]
        simp [src, st.same.connect]
    · left
      exact conv id m ((live m).mp hm).1 (by rw [ins, if_neg hmv]) fun c _ => src c

theorem KeepsOperands.refl (w : World) : KeepsOperands w w :=
  ⟨id, fun _ _ _ => rfl, fun m hm _ => ⟨hm, rfl, rfl, rfl, rfl, fun _ _ => by simp⟩⟩

theorem KeepsOperands.trans {w w1 w2 : World} (hn : w.next ≤ w1.next) (h1 : KeepsOperands w w1) (h2 : KeepsOperands w1 w2) :
    KeepsOperands w w2 := by
  obtain ⟨σ1, f1, k1⟩ := h1
  obtain ⟨σ2, f2, k2⟩ := h2
  refine ⟨fun x => σ2 (σ1 x), ?_, ?_⟩
  · intro x hx hlt
    dsimp only
    rw [f1 x (k2 x hx (by omega)).1 hlt, f2 x hx (by omega)]
  · intro m hm hlt'
    obtain ⟨a1, a2, a3, a4, a5, a6⟩ := k2 m hm (by omega)
    obtain ⟨b1, b2, b3, b4, b5, b6⟩ := k1 m a1 hlt'
    refine ⟨b1, a2.trans b2, a3.trans b3, a4.trans b4, a5.trans b5, fun ho hno => ?_⟩
    rw [a6 (by rw [b2]; exact ho) (by rw [b2]; exact hno), b6 ho hno, List.map_map]
    rfl

theorem BindStep.keeps {w w' : World} {b : Nat × String} {hd : Nat} (st : BindStep w w' b hd) : KeepsOperands w w' := by
  obtain ⟨σ, h1, -, h3⟩ := st.insV
  refine ⟨σ, fun x hx _ => h1 x hx, fun m hm _ => ⟨st.live_mono hm, st.same.op m, st.same.data m, st.same.ty m, st.same.kind m, ?_⟩⟩
  intro ho _
  rcases h3 m hm with e | ⟨-, e, -⟩
  · exact e
  · exact absurd e ho

theorem BindSteps.keeps {w w' : World} {bs : List (Nat × String)} {hds : List Nat} (h : BindSteps w w' bs hds) :
    KeepsOperands w w' := by
  induction h with
  | nil => exact .refl _
  | cons st _ ih => exact .trans (Nat.le_of_eq st.same.next.symm) st.keeps ih

theorem BindSteps.next {w w' : World} {bs : List (Nat × String)} {hds : List Nat} (h : BindSteps w w' bs hds) :
    w'.next = w.next := by
  induction h with
  | nil => rfl
  | cons st _ ih => exact ih.trans st.same.next

theorem transfer_same {w w' : World} (h : w.transfer = .ok w') : w'.next = w.next ∧ w'.chan = w.chan ∧
    (∀ m, w'.Live m ↔ w.Live m) ∧ ∀ m, (w'.node m).op = (w.node m).op ∧ (w'.node m).data = (w.node m).data ∧
      (w'.node m).ty = (w.node m).ty ∧ (w'.node m).kind = (w.node m).kind ∧ (w'.node m).name = (w.node m).name ∧
      (w'.node m).ins = (w.node m).ins ∧ (w'.node m).outs = (w.node m).outs := by
  unfold World.transfer at h
  split at h
  swap
  · cases h
  rename_i S K rest hst
  injection h with h
  refine ⟨by rw [← h], by rw [← h], ?_, ?_⟩
  · intro m
    unfold World.Live
    rw [← h, hst]
    simp only [List.mem_cons, exists_eq_or_imp, List.mem_append]
    tauto
  · intro m; rw [← h]; dsimp only; split <;> exact ⟨rfl, rfl, rfl, rfl, rfl, rfl, rfl⟩

theorem transfer_insV {w w' : World} (h : w.transfer = .ok w') (m : Nat) : insV w' m = insV w m := by
  obtain ⟨-, hc, -, hf⟩ := transfer_same h
  unfold insV
  rw [hc, (hf m).2.2.2.2.2.1]

theorem addNode_keeps {w : World} (hi : Inv w) {k : Nat} {r : NodeRec} (hk : ∃ g ∈ w.stack, g.id = k) :
    KeepsOperands w (w.addNode k r) := by
  refine ⟨id, fun _ _ _ => rfl, fun m hm hlt => ?_⟩
  have hne := Nat.ne_of_lt hlt
  refine ⟨((live_addNode w k r hk m).mp hm).resolve_left hne, ?_⟩
  rw [addNode_node _ _ _ _ hne]
  refine ⟨rfl, rfl, rfl, rfl, fun _ _ => ?_⟩
  rw [view_ins, view_ins, insV_addNode, if_neg hne]
  simp

theorem exec_next {F : FloatOps} {w w' : World} {cmd : Cmd} {rs : List Nat} (hi : Inv w) (hc : Clean w cmd)
    (h : w.exec F cmd = .ok (w', rs)) : w.next ≤ w'.next := by
  cases exec_shape h with
  | new op ty sc name hop e _ => subst e; exact Nat.le_succ _
  | const ty v n hh _ _ _ =>
    obtain ⟨hk, g, -, (⟨rfl, -⟩ | ⟨-, -, rfl⟩)⟩ := createOrUseConst_ok hh
    · exact Nat.le_refl _
    · exact Nat.le_succ _
  | op k op data ty l n hop _ hh hl =>
    obtain ⟨-, -, e, -⟩ := newOp_effect hi hop.isOp.1 hh (by rw [hl]; exact exec_vars h)
    omega
  | same a e _ _ _ => subst e; exact Nat.le_refl _
  | connect a b hh => obtain ⟨e, -⟩ := addChannel_live hh; subst e; exact Nat.le_refl _
  | begin e => subst e; exact Nat.le_refl _
  | inst bs S K rest hst w1 _ h1 h2 =>
    have steps := bindAll_steps bs w w1 S K rest _ hi hst (clean_lookup hst hc) h1
    exact Nat.le_of_eq ((transfer_same h2).1.trans steps.next).symm

theorem exec_keeps {F : FloatOps} {w w' : World} {cmd : Cmd} {rs : List Nat} (hi : Inv w) (hc : Clean w cmd) (hs : Sane w cmd)
    (h : w.exec F cmd = .ok (w', rs)) : KeepsOperands w w' := by
  cases exec_shape h with
  | new op ty sc name hop e _ => subst e; exact addNode_keeps hi (cur_mem hi.st)
  | const ty v n hh _ _ _ =>
    obtain ⟨hk, g, -, (⟨rfl, -⟩ | ⟨-, -, rfl⟩)⟩ := createOrUseConst_ok hh
    · exact .refl _
    · exact addNode_keeps hi hk
  | op k op data ty l n hop _ hh hl =>
    obtain ⟨-, hk, en, -, -, hf, -, -, hlive⟩ := newOp_effect hi hop.isOp.1 hh (by rw [hl]; exact exec_vars h)
    refine ⟨id, fun _ _ _ => rfl, fun m hm hlt => ?_⟩
    have hne := Nat.ne_of_lt hlt
    have lm := ((hlive m).mp hm).resolve_left hne
    have f := hf m hne
    refine ⟨lm, f.1, f.2.1, f.2.2.1, f.2.2.2.1, fun _ _ => ?_⟩
    rw [view_ins, view_ins, insV_newOp hi hop.isOp.1 hh m (Or.inl lm), if_neg hne]
    simp
  | same a e _ _ _ => subst e; exact .refl _
  | connect a b hh =>
    obtain ⟨e, -, -⟩ := addChannel_live hh
    subst e
    refine ⟨id, fun _ _ _ => rfl, fun m hm hlt => ?_⟩
    have hm : w.Live m := hm
    obtain ⟨a1, b1, c1, d1, e1, f1⟩ := link_fields w b a 0 true m
    refine ⟨hm, a1, f1, e1, b1, fun ho hno => ?_⟩
    rw [view_ins, view_ins, insV_link hi hm, if_neg]
    · simp
    · rintro rfl
      rcases hs with hs | hs
      · exact ho hs
      · exact hno hs
  | begin e =>
    subst e
    refine ⟨id, fun _ _ _ => rfl, fun m hm hlt => ⟨?_, rfl, rfl, rfl, rfl, fun _ _ => ?_⟩⟩
    · obtain ⟨g, hg, hn⟩ := hm
      rcases List.mem_cons.mp hg with rfl | hg
      · cases hn
      · exact ⟨g, hg, hn⟩
    · rw [view_ins, view_ins]; simp [insV]
  | inst bs S K rest hst w1 _ h1 h2 =>
    have steps := bindAll_steps bs w w1 S K rest _ hi hst (clean_lookup hst hc) h1
    refine .trans (Nat.le_of_eq steps.next.symm) steps.keeps ?_
    obtain ⟨e1, e2, e3, e4⟩ := transfer_same h2
    refine ⟨id, fun _ _ _ => rfl, fun m hm hlt => ⟨(e3 m).mp hm, (e4 m).1, (e4 m).2.1, (e4 m).2.2.1, (e4 m).2.2.2.1, fun _ _ => ?_⟩⟩
    rw [view_ins, view_ins, transfer_insV h2]; simp

/-- Nodes that exist before and after a call. -/
theorem exec_old {F : FloatOps} {w w' : World} {cmd : Cmd} {rs : List Nat} (hi : Inv w) (hc : Clean w cmd)
    (h : w.exec F cmd = .ok (w', rs)) {m : Nat} (hm : w'.Live m) (hlt : m < w.next) :
    w.Live m ∧ (w'.node m).op = (w.node m).op ∧ (w'.node m).data = (w.node m).data ∧
      (w'.node m).ty = (w.node m).ty ∧ (w'.node m).kind = (w.node m).kind := by
  by_cases hcon : ∃ a b, cmd = .connect a b
  · obtain ⟨a, b, rfl⟩ := hcon
    cases exec_shape h with
    | connect _ _ hh =>
      obtain ⟨e, -, -⟩ := addChannel_live hh
      subst e
      obtain ⟨a1, b1, c1, d1, e1, f1⟩ := link_fields w b a 0 true m
      exact ⟨hm, a1, f1, e1, b1⟩
    | new o ty sc name ho e hc => simp at hc
    | const ty v n hh hs _ _ => cases hs
    | op k o data ty l n ho hcr hh hl => cases hcr
    | same x e hs _ _ => cases hs
  · have hs : Sane w cmd := by
      cases cmd <;> first | trivial | exact absurd ⟨_, _, rfl⟩ hcon
    obtain ⟨σ, -, k⟩ := exec_keeps hi hc hs h
    obtain ⟨k1, k2, k3, k4, k5, -⟩ := k m hm hlt
    exact ⟨k1, k2, k3, k4, k5⟩

/-- New nodes. -/
theorem exec_new {F : FloatOps} {w w' : World} {cmd : Cmd} {rs : List Nat} (hi : Inv w) (hc : Clean w cmd)
    (h : w.exec F cmd = .ok (w', rs)) {m : Nat} (hm : w'.Live m) (hge : w.next ≤ m) : m = w.next ∧ rs = [m] ∧
      ((∃ sc name ty, insV w' m = [] ∧ ((cmd = .input sc name ty ∧ (w'.node m).op = .IN) ∨ (cmd = .output sc name ty ∧ (w'.node m).op = .OUT) ∨
          (cmd = .newVar sc ty ∧ (w'.node m).op = .NONE))) ∨
       (∃ ty v, insV w' m = [] ∧ (w'.node m).op = .CONST ∧ (w'.node m).ty = ty ∧ (w'.node m).kind = .const v ∧
          w.createOrUseConst ty v = .ok (w', m) ∧ ∀ n, ¬ w.IsConst n ty v) ∨
       ∃ op data ty, (w'.node m).op = op ∧ (w'.node m).data = data ∧ (w'.node m).ty = ty ∧ OpShape w op data ty cmd.vars ∧
        insV w' m = cmd.vars.map fun a => (a, false)) := by
  have absurdLive : w.Live m → False := fun l => absurd (live_lt hi.st l) (Nat.not_lt.mpr hge)
  cases exec_shape h with
  | new op ty sc name hop e hcm =>
    subst e
    have e := ((live_addNode _ _ _ (cur_mem hi.st) m).mp hm).resolve_right absurdLive
    refine ⟨e, by rw [e], Or.inl ⟨sc, name, ty, by rw [insV_addNode, if_pos e], ?_⟩⟩
    rw [e, addNode_new]
    rcases hcm with ⟨a, b⟩ | ⟨a, b⟩ | ⟨a, b, -⟩
    · exact Or.inl ⟨a, b⟩
    · exact Or.inr (Or.inl ⟨a, b⟩)
    · exact Or.inr (Or.inr ⟨a, b⟩)
  | const ty v n hh _ _ _ =>
    obtain ⟨hk, g, hg, (⟨rfl, -⟩ | ⟨hno, en, ew⟩)⟩ := createOrUseConst_ok hh
    · exact (absurdLive hm).elim
    · subst ew
      have e := ((live_addNode _ _ _ hk m).mp hm).resolve_right absurdLive
      refine ⟨e, by rw [e, en], Or.inr (Or.inl ⟨ty, v, by rw [insV_addNode, if_pos e], ?_, ?_, ?_, ?_, ?_⟩)⟩
      · rw [e, addNode_new]
      · rw [e, addNode_new]
      · rw [e, addNode_new]
      · rw [hh, en, e]
      · rintro x ⟨⟨g', hg', hx⟩, ho, ht, hv⟩
        obtain ⟨hst, h0⟩ := hi.st.constTop g' hg' x hx ho
        obtain ⟨hgm, hg0⟩ := kernel_some hg
        have := eq_of_id hi.st hg' hgm (h0.trans hg0.symm)
        subst this
        have := hno x hst
        unfold World.isConstNode at this
        rw [ho, hv] at this
        simp [ht, (type_eq_iff ty ty).mpr rfl] at this
  | op k op data ty l n hop _ hh hl =>
    obtain ⟨en, hk, -, eop, -, hf, -, -, hlive⟩ := newOp_effect hi hop.isOp.1 hh (by rw [hl]; exact exec_vars h)
    have e := ((hlive m).mp hm).resolve_right absurdLive
    obtain ⟨f1, f2, f3, -, -⟩ := newOp_fields hi hop.isOp.1 hh
    refine ⟨e, by rw [e, en], Or.inr (Or.inr ⟨op, data, ty, ?_, ?_, ?_, hl ▸ hop, ?_⟩)⟩
    · rw [e]; exact f1
    · rw [e]; exact f2
    · rw [e]; exact f3
    · rw [insV_newOp hi hop.isOp.1 hh m (Or.inr e), if_pos e, hl]
  | same a e _ _ _ => subst e; exact (absurdLive hm).elim
  | connect a b hh => obtain ⟨e, -⟩ := addChannel_live hh; subst e; exact (absurdLive hm).elim
  | begin e =>
    subst e
    obtain ⟨g, hg, hn⟩ := hm
    rcases List.mem_cons.mp hg with rfl | hg
    · cases hn
    · exact (absurdLive ⟨g, hg, hn⟩).elim
  | inst bs S K rest hst w1 _ h1 h2 =>
    have steps := bindAll_steps bs w w1 S K rest _ hi hst (clean_lookup hst hc) h1
    exact (absurdLive (steps.live_mono (((transfer_same h2).2.2.1 m).mp hm))).elim

/-- Calls that are clean and connect only outputs and shallow variables. -/
def CleanSane (w : World) (c : Cmd) : Prop := Clean w c ∧ Sane w c

/-- **C04, creation.** An operator call returns a new node whose operands are the given ones, in call order. -/
theorem operator_operands {F : FloatOps} {w w' : World} {cmd : Cmd} {rs : List Nat} {op : OpType} (hist : Hist F Clean World.init w)
    (h : w.exec F cmd = .ok (w', rs)) (hop : cmd.creates w = some op) :
    ∃ n, rs = [n] ∧ ¬ w.Live n ∧ w'.Live n ∧ (w'.view n).op = op ∧ (w'.view n).ins = cmd.vars.map fun a => (a, false) := by
  have hi := inv_hist (fun _ _ h => h) hist inv_init
  cases exec_shape h with
  | new o ty sc name ho e hc =>
    rcases hc with ⟨rfl, -⟩ | ⟨rfl, -⟩ | ⟨rfl, -⟩ <;> cases hop
  | const ty v n hh _ hcr _ => rw [hcr] at hop; cases hop
  | op k o data ty l n ho hcr hh hl =>
    rw [hcr] at hop
    injection hop with hop
    subst hop
    obtain ⟨e1, hk, en, eop, -, hf, -, -, hlive⟩ := newOp_effect hi ho.isOp.1 hh (by rw [hl]; exact exec_vars h)
    refine ⟨n, rfl, ?_, ?_, ?_, ?_⟩
    · rw [e1]; exact fun l => Nat.lt_irrefl _ (live_lt hi.st l)
    · rw [hlive]; exact Or.inl e1
    · rw [e1]; exact eop
    · rw [view_ins, insV_newOp hi ho.isOp.1 hh n (Or.inr e1), if_pos e1, hl]
  | same a e _ hcr _ => rw [hcr] at hop; cases hop
  | connect a b hh => cases hop
  | begin e => cases hop
  | inst bs S K rest hst w1 _ h1 h2 => cases hop

/-- **C04, stability.** Whatever is called later, operators keep their operands. -/
theorem operands_kept {F : FloatOps} {w w' : World} (hw : Hist F CleanSane World.init w) (h : Hist F CleanSane w w') :
    KeepsOperands w w' := by
  have hi := inv_hist (fun _ _ h => h.1) hw inv_init
  suffices hh : Inv w' ∧ w.next ≤ w'.next ∧ KeepsOperands w w' from hh.2.2
  induction h with
  | nil => exact ⟨hi, Nat.le_refl _, .refl _⟩
  | snoc c _ hp he ih =>
    obtain ⟨i1, n1, k1⟩ := ih
    exact ⟨inv_exec i1 hp.1 he, Nat.le_trans n1 (exec_next i1 hp.1 he), k1.trans n1 (exec_keeps i1 hp.1 hp.2 he)⟩

/-! ### Constants -/

/-- **C05, uniqueness.** At any time there is at most one constant per type and bit pattern. -/
theorem constants_unique {F : FloatOps} {w : World} (h : Hist F Clean World.init w) {n n' : Nat} {ty : DFType} {v : Word}
    (h1 : w.IsConst n ty v) (h2 : w.IsConst n' ty v) : n = n' := by
  induction h generalizing n n' ty v with
  | nil =>
    obtain ⟨g, hg, hn⟩ := h1.live
    simp only [World.init, List.mem_singleton] at hg
    subst hg; cases hn
  | @snoc w1 w2 rs c hh hp he ih =>
    have hi := inv_hist (fun _ _ h => h) hh inv_init
    -- an old constant was one before
    have old : ∀ {x}, w2.IsConst x ty v → x < w1.next → w1.IsConst x ty v := by
      intro x hx hlt
      obtain ⟨a1, a2, a3, a4, a5⟩ := exec_old hi hp he hx.live hlt
      exact ⟨a1, a2.symm.trans hx.op, a4.symm.trans hx.ty, a5.symm.trans hx.val⟩
    have fresh : ∀ {x y}, w2.IsConst x ty v → w1.next ≤ x → w2.IsConst y ty v → x = y := by
      intro x y hx hge hy
      obtain ⟨ex, -, hk⟩ := exec_new hi hp he hx.live hge
      by_cases hyl : y < w1.next
      · exfalso
        rcases hk with ⟨sc, nm, t, -, ⟨-, ho⟩ | ⟨-, ho⟩ | ⟨-, ho⟩⟩ | ⟨t, u, -, -, et, eu, -, hno⟩ | ⟨op, d, t, ho, -, -, hs, -⟩
        · rw [hx.op] at ho; cases ho
        · rw [hx.op] at ho; cases ho
        · rw [hx.op] at ho; cases ho
        · have e1 : t = ty := et.symm.trans hx.ty
          have e2 : u = v := by rw [hx.val] at eu; injection eu with eu; exact eu.symm
          subst e1; subst e2
          exact hno y (old hy hyl)
        · rw [hx.op] at ho; exact hs.isOp.1 ho.symm
      · rw [ex, (exec_new hi hp he hy.live (Nat.not_lt.mp hyl)).1]
    by_cases hn : n < w1.next
    · by_cases hn' : n' < w1.next
      · exact ih (old h1 hn) (old h2 hn')
      · exact (fresh h2 (Nat.not_lt.mp hn') h1).symm
    · exact fresh h1 (Nat.not_lt.mp hn) h2

theorem BindStep.live_const {w w' : World} {b : Nat × String} {hd : Nat} (st : BindStep w w' b hd) {m : Nat} (h : w.Live m)
    (ho : (w.node m).op = .CONST) : w'.Live m := by
  have hne : ∀ x, (w.node x).op ≠ .CONST → m ≠ x := by rintro x hx rfl; exact hx ho
  cases st.eff with
  | input hop _ _ live => exact (live m).mpr ⟨h, hne _ (by rw [hop]; simp)⟩
  | shallow _ hop _ hnone _ _ _ _ live => exact (live m).mpr ⟨h, hne _ (by rw [hop]; simp), hne _ (by rw [hnone]; simp)⟩
  | self _ hop _ _ _ _ _ _ live => exact (live m).mpr ⟨h, hne _ (by rw [hop]; simp)⟩
  | output _ hop _ _ _ _ _ live => exact (live m).mpr ⟨h, hne _ (by rw [hop]; simp)⟩

/-- Nodes that no binding removes stay. -/
theorem exec_live {F : FloatOps} {w w' : World} {cmd : Cmd} {rs : List Nat} (hi : Inv w) (hc : ∀ bs, cmd ≠ .endInst bs)
    (h : w.exec F cmd = .ok (w', rs)) {m : Nat} (hm : w.Live m) : w'.Live m := by
  cases exec_shape h with
  | new op ty sc name hop e hcm => subst e; exact (live_addNode _ _ _ (cur_mem hi.st) m).mpr (Or.inr hm)
  | const ty v n hh _ _ _ =>
    obtain ⟨hk, g, hg, (⟨rfl, -⟩ | ⟨hno, en, ew⟩)⟩ := createOrUseConst_ok hh
    · exact hm
    · subst ew; exact (live_addNode _ _ _ hk m).mpr (Or.inr hm)
  | op k op data ty l n hop _ hh hl =>
    obtain ⟨-, -, -, -, -, -, -, -, hlive⟩ := newOp_effect hi hop.isOp.1 hh (by rw [hl]; exact exec_vars h)
    exact (hlive m).mpr (Or.inr hm)
  | same a e _ _ _ => subst e; exact hm
  | connect a b hh => obtain ⟨e, -⟩ := addChannel_live hh; subst e; exact hm
  | begin e =>
    subst e
    obtain ⟨g, hg, hn⟩ := hm
    exact ⟨g, List.mem_cons_of_mem _ hg, hn⟩
  | inst bs S K rest hst w1 _ h1 h2 => exact absurd rfl (hc bs)

theorem exec_const_live {F : FloatOps} {w w' : World} {cmd : Cmd} {rs : List Nat} (hi : Inv w) (hc : Clean w cmd)
    (h : w.exec F cmd = .ok (w', rs)) {m : Nat} (hm : w.Live m) (ho : (w.node m).op = .CONST) : w'.Live m := by
  by_cases he : ∃ bs, cmd = .endInst bs
  swap
  · exact exec_live hi (fun bs e => he ⟨bs, e⟩) h hm
  obtain ⟨bs, rfl⟩ := he
  cases exec_shape h with
  | inst _ S K rest hst w1 _ h1 h2 =>
    have steps := bindAll_steps bs w w1 S K rest _ hi hst (clean_lookup hst hc) h1
    rw [(transfer_same h2).2.2.1]
    clear h1 h2 h hst hc
    induction steps with
    | nil => exact hm
    | cons st _ ih => exact ih st.inv' (st.live_const hm ho) ((st.same.op m).trans ho)
  | new o ty sc name ho e hc => simp at hc
  | const ty v n hh hs _ _ => cases hs
  | op k o data ty l n ho hcr hh hl => cases hcr
  | same x e hs _ _ => cases hs

/-- **C05, permanence.** A constant never disappears and never changes. -/
theorem constants_stay {F : FloatOps} {w w' : World} (hw : Hist F Clean World.init w) (h : Hist F Clean w w') {n : Nat} {ty : DFType}
    {v : Word} (hn : w.IsConst n ty v) : w'.IsConst n ty v := by
  have hi := inv_hist (fun _ _ h => h) hw inv_init
  suffices hh : Inv w' ∧ w'.IsConst n ty v from hh.2
  induction h with
  | nil => exact ⟨hi, hn⟩
  | snoc c _ hp he ih =>
    obtain ⟨i1, k⟩ := ih
    have hl := exec_const_live i1 hp he k.live k.op
    obtain ⟨-, a2, -, a4, a5⟩ := exec_old i1 hp he hl (live_lt i1.st k.live)
    exact ⟨inv_exec i1 hp he, hl, a2.trans k.op, a4.trans k.ty, a5.trans k.val⟩

/-- **C05, requests.** A request for a constant returns a constant of this type and value: the existing one if there is one, and
then nothing changes; a new node otherwise. -/
theorem constant_request {F : FloatOps} {w w' : World} {ty : DFType} {v : Word} {rs : List Nat} (hw : Hist F Clean World.init w)
    (h : w.exec F (.const ty v) = .ok (w', rs)) :
    ∃ n, rs = [n] ∧ w'.IsConst n ty v ∧ ((∃ m, w.IsConst m ty v) → w' = w) ∧ ((¬ ∃ m, w.IsConst m ty v) → ¬ w.Live n) := by
  have hi := inv_hist (fun _ _ h => h) hw inv_init
  have main : ∀ n, w.createOrUseConst ty v = .ok (w', n) → w'.IsConst n ty v ∧ ((∃ m, w.IsConst m ty v) → w' = w) ∧
      ((¬ ∃ m, w.IsConst m ty v) → ¬ w.Live n) := by
    intro n hh
    obtain ⟨hk, g, hg, (⟨rfl, hst, hc⟩ | ⟨hno, en, ew⟩)⟩ := createOrUseConst_ok hh
    · obtain ⟨hgm, -⟩ := kernel_some hg
      have lv : w'.Live n := ⟨g, hgm, ((hi.st.starts g hgm).2 n hst).1⟩
      have hcn : w'.IsConst n ty v := by
        unfold World.isConstNode at hc
        split at hc
        · rename_i v' ho hv
          simp only [Bool.and_eq_true, beq_iff_eq] at hc
          exact ⟨lv, ho, (type_eq_iff _ _).mp hc.1, by rw [hv, hc.2]⟩
        · cases hc
      exact ⟨hcn, fun _ => rfl, fun hne => absurd ⟨n, hcn⟩ hne⟩
    · subst ew
      have nl : ¬ w.Live n := by rw [en]; exact fun l => Nat.lt_irrefl _ (live_lt hi.st l)
      refine ⟨⟨(live_addNode _ _ _ hk n).mpr (Or.inl en), ?_, ?_, ?_⟩, ?_, fun _ => nl⟩
      · rw [en, addNode_new]
      · rw [en, addNode_new]
      · rw [en, addNode_new]
      · rintro ⟨x, ⟨⟨g', hg', hx⟩, ho, ht, hv⟩⟩
        exfalso
        obtain ⟨hst, h0⟩ := hi.st.constTop g' hg' x hx ho
        obtain ⟨hgm, hg0⟩ := kernel_some hg
        have := eq_of_id hi.st hg' hgm (h0.trans hg0.symm)
        subst this
        have := hno x hst
        unfold World.isConstNode at this
        rw [ho, hv] at this
        simp [ht, (type_eq_iff ty ty).mpr rfl] at this
  cases exec_shape h with
  | const ty' v' n hh _ _ hc =>
    obtain ⟨rfl, rfl⟩ := hc ty v rfl
    exact ⟨n, rfl, main n hh⟩
  | new o ty sc name ho e hc => simp at hc
  | op k o data ty l n ho hcr hh hl => cases hcr
  | same x e _ hcr hc => exact absurd rfl (hc ty v)

/-! ### Shallow variables -/

theorem clean_of_wellUsed : ∀ w c, WellUsed w c → Clean w c := fun _ _ h => h.clean

theorem good_of_wellUsed {F : FloatOps} {w w' : World} (h : Hist F WellUsed w w') : Hist F Good w w' := by
  induction h with
  | nil => exact .nil _
  | snoc c _ hp he ih => exact .snoc c ih ⟨hp.clean, hp.forward⟩ he

/-- Binding a shallow variable to an output of an instance removes it. -/
theorem endInst_defines {F : FloatOps} {w w' : World} {bs : List (Nat × String)} {rs : List Nat} (hi : Inv w) (ha : AInv w)
    (hc : Clean w (.endInst bs)) (hf : Forward w (.endInst bs)) (h : w.exec F (.endInst bs) = .ok (w', rs)) {b : Nat × String}
    (hb : b ∈ bs) {n : Nat} (hn : w.Bound b.2 n) (ho : (w.node n).op ≠ .IN) (hv : (w.node b.1).op = .NONE) : ¬ w'.Live b.1 := by
  cases exec_shape h with
  | inst _ S K rest hst w1 _ h1 h2 =>
    have steps := bindAll_steps bs w w1 S K rest _ hi hst (clean_lookup hst hc) h1
    obtain ⟨R, -, -, h3⟩ := bindAll_ranked hi ha hst hf steps
    obtain ⟨n', hn', hh⟩ := h3 b hb
    obtain ⟨S', rest', hst', hn⟩ := hn
    rw [hst] at hst'
    injection hst' with e1 _
    subst e1
    rw [hn] at hn'
    injection hn' with hn'
    subst hn'
    rw [(transfer_same h2).2.2.1]
    exact hh ho hv
  | new o ty sc name ho e hc => simp at hc
  | const ty v n hh hs _ _ => cases hs
  | op k o data ty l n ho hcr hh hl => cases hcr
  | same x e hs hcr _ => cases hs

end Verif.Dfcxx
