import Verif.Flat.Base
/-
The general rule for operators, and the rules for ports and constants.
-/
namespace Verif.Flat
open Verif.Dfcxx Verif.Flow Verif.Kernels

section
variable {F : FloatOps} {C : Cfg} {N : List Nat} {w : World}

/-- May be an operand of a new node. -/
structure Opd (w : World) (a : Nat) : Prop where
  live : w.Live a
  notOut : (w.view a).op ≠ .OUT
  notNone : (w.view a).op ≠ .NONE

theorem SVal.opd {k : Nat} {n : Nat} {s : Bool} {d : Int} {e : Env → Int → BitVec k} (h : SVal C w n s d e) : Opd w n :=
  ⟨h.live, h.notOut, h.notNone⟩

theorem flat_addNode {k : Nat} {r : NodeRec} (h : ∃ g, w.stack = [g] ∧ g.id = 0) : ∃ g, (w.addNode k r).stack = [g] ∧ g.id = 0 := by
  obtain ⟨g, h1, h2⟩ := h
  unfold World.addNode
  simp only [h1, List.map_cons, List.map_nil]
  refine ⟨_, rfl, ?_⟩
  split <;> exact h2

/-- What a state becomes when a node is added and nothing else changes. -/
theorem FGood.extend (hg : FGood F C N w) {w' : World} {c : Cmd} {rs : List Nat} (hx : w.exec F c = .ok (w', rs)) (hp : Proper w c)
    (hflat : ∃ g, w'.stack = [g] ∧ g.id = 0)
    (hlive : ∀ m, w'.Live m ↔ m = w.next ∨ w.Live m) (hext : Extends w w') (hf : ∀ m, w.Live m → FieldsEq (w.node m) (w'.node m))
    {N' : List Nat} (hN : ∀ m ∈ N', m ∈ N ∨ (m = w.next ∧ w'.Live m ∧ (w'.node m).op = .OUT ∧ TypeOK (w'.node m).ty ∧ (w'.node m).data = .none ∧
      (w'.node m).ins = [] ∧ (C.exempt (width (w'.node m).ty) = false → (w'.node m).ty.isSigned = C.sg (width (w'.node m).ty))))
    (hN' : ∀ m ∈ N, m ∈ N') (hnew : w.next ∉ N' → FNode C w'.view w.next) : FGood F C N' w' := by
  refine ⟨.snoc c hg.hist hp hx, hflat, ?_, ?_⟩
  · intro n hn hnN
    rcases (hlive n).mp hn with rfl | hl
    · exact hnew hnN
    · refine (hg.ok n hl fun h => hnN (hN' n h)).same (hext.same n hl) fun s hs => hext.same s ?_
      rw [srcs_eq] at hs
      obtain ⟨ch, hch, rfl⟩ := List.mem_map.mp hs
      exact (hg.inv.ch.inn n hl ch hch).2.2.1
  · intro n hn
    rcases hN n hn with hn | ⟨-, h⟩
    · obtain ⟨a, b, c1, d1, d2, d3⟩ := hg.pend n hn
      obtain ⟨e1, e2, e3, -⟩ := hf n a
      have hv := congrArg NodeV.ins (hext.same n a)
      have hins : (w'.node n).ins = [] := by
        have : (w'.view n).ins = [] := by
          rw [hv, view_ins]; unfold insV; rw [d2]; rfl
        rw [view_ins] at this
        exact List.map_eq_nil_iff.mp this
      exact ⟨hext.live n a, by rw [e1]; exact b, by rw [e3]; exact c1, by rw [e2]; exact d1, hins, by rw [e3]; exact d3⟩
    · exact h

/-- The rule for operators. -/
theorem FGood.op (hg : FGood F C N w) {c : Cmd} {op : OpType} {data : NodeData} {ty : DFType} {l : List Nat}
    (hex : w.exec F c = retOne (w.newOp 0 op data ty l)) (hp : Proper w c)
    (hop : op ≠ .CONST ∧ op ≠ .IN ∧ op ≠ .OUT ∧ op ≠ .NONE) (hl : ∀ a ∈ l, Opd w a)
    (hok : ∀ V : Nat → NodeV, V w.next = ⟨op, data, ty, .stream, "", reads l⟩ → (∀ a ∈ l, V a = w.view a) → FNode C V w.next)
    {k : Nat} (hk : width ty = k) {s : Bool} (hs : ty.isSigned = s) {d : Int} (e : Env → Int → BitVec k)
    (hv : ∀ V : Nat → NodeV, V w.next = ⟨op, data, ty, .stream, "", reads l⟩ → (∀ a ∈ l, V a = w.view a) → ∀ inp, Fits C.ins inp →
      (∀ a ∈ l, ∀ t x, HwVal w.view inp a t x → HwVal V inp a t x) → ∀ t, d ≤ t → HwVal V inp w.next t (e inp t).toNat) :
    FDoes F C (call1 F c) w (fun _ => N) (fun n w' => Str C w' n s d e) := by
  have hi := hg.inv
  obtain ⟨g, hst, hid⟩ := hg.flat
  obtain ⟨w', hw'⟩ := newOp_succeeds hi ⟨g, by rw [hst]; simp, hid⟩ (op := op) (data := data) (ty := ty) (l := l)
    (fun a ha => ⟨(hl a ha).live, .inl (hg.kern (hl a ha).live)⟩) hop.1
  have hlt : ∀ a ∈ l, a < w.next := fun a ha => live_lt hi.st (hl a ha).live
  have hx : w.exec F c = .ok (w', [w.next]) := by rw [hex, hw']; rfl
  obtain ⟨-, h2, h3, h4⟩ := newOp_view hi hop.1 hlt hw'
  obtain ⟨-, -, k3, k4, k5, k6, k7, -, k9⟩ := newOp_effect hi hop.1 hw' hlt
  have hf : ∀ m, w.Live m → FieldsEq (w.node m) (w'.node m) := fun m hm => k6 m (Nat.ne_of_lt (live_lt hi.st hm))
  have hsame : ∀ a ∈ l, w'.view a = w.view a := fun a ha => h4.same a (hl a ha).live
  have hvop : (w'.view w.next).op = op := by rw [h3]
  refine ⟨w.next, w', by unfold call1; rw [hx], hg.extend hx hp ?_ k9 h4 hf (fun m hm => .inl hm) (fun m hm => hm) (fun _ => hok _ h3 hsame), .of h4,
    ⟨h2, by rw [hvop]; exact hop.2.2.1, by rw [hvop]; exact hop.2.2.2, by rw [h3]; exact hk, by rw [h3]; exact hs, ?_⟩, by rw [h3],
    by rw [hvop]; exact hop.1⟩
  · rw [newOp_stack hw']; exact flat_addNode hg.flat
  · exact fun inp hfit t ht => hv _ h3 hsame inp hfit (fun a ha t x hx => hwVal_ext hi (.of h4) hx (hl a ha).live) t ht

/-- Every node that is not a multiplexer, an offset or an output. -/
theorem fnode_new {V : Nat → NodeV} {n : Nat} {op : OpType} {data : NodeData} {ty : DFType} {l : List Nat}
    (hV : V n = ⟨op, data, ty, .stream, "", reads l⟩) (hop : op ≠ .NONE ∧ op ≠ .OFFSET ∧ op ≠ .IN ∧ op ≠ .OUT)
    (hprod : ProducedFor TypeOK V (unitL C.signed op) n) (hs : ∀ s ∈ l, Opd w s) (he : ∀ s ∈ l, V s = w.view s) (hlen : l.length ≤ 128)
    (hsg : C.exempt (width ty) = false → ty.isSigned = C.sg (width ty))
    (hcalm : ∀ s ∈ l, C.exempt (width (w.view s).ty) = true → l = [s] ∧ C.exempt (width ty) = true)
    (hdat : ∀ j, data ≠ .offset j := by simp) : FNode C V n := by
  obtain ⟨h1, h2, h3, h4⟩ := hop
  have hsr := srcs_reads hV
  refine ⟨by rw [hV]; exact hprod, by rw [hV]; exact h1, ?_, .inl (by rw [hsr]; exact hlen), by rw [hV]; exact fun h => absurd h h4, ?_,
    by rw [hV]; exact fun h => absurd h h2, by rw [hV]; exact fun h => absurd h h3, by rw [hV]; exact hsg, ?_⟩
  · rw [hsr]
    intro s hm
    rw [he s hm]
    exact ⟨(hs s hm).notOut, (hs s hm).notNone⟩
  · rw [hV]; intro j hj; exact absurd hj (hdat j)
  · rw [hsr]
    intro s hm hx
    rw [he s hm] at hx
    rw [hV]
    exact hcalm s hm hx

/-! ### Ports -/

theorem FGood.input (hg : FGood F C N w) {k : Nat} {ty : DFType} (ht : TypeOK ty) (hw : width ty = k) {s : Bool} (hs : ty.isSigned = s)
    {name : String} (hin : (name, k) ∈ C.ins) (hx : C.exempt k = false) (hsg : s = C.sg k) :
    FDoes F C (call1 F (.input false name ty)) w (fun _ => N)
      (fun n w' => Str C w' n s 0 (fun inp t => BitVec.ofNat k (inp name t.toNat))) := by
  have hi := hg.inv
  set r : NodeRec := ⟨.IN, .none, ty, .stream, name, w.cur, [], []⟩ with hr
  have hx' : w.exec F (.input false name ty) = .ok (w.addNode w.cur r, [w.next]) := by
    unfold World.exec
    rw [if_neg (by simp [Cmd.vars])]
    rfl
  obtain ⟨hlive, hview, hext⟩ := addNode_view (r := r) hi (cur_mem hi.st)
  have hsr : ((w.addNode w.cur r).view w.next).srcs = [] := by rw [hview]; rfl
  refine ⟨w.next, w.addNode w.cur r, by unfold call1; rw [hx'],
    hg.extend hx' ⟨⟨trivial, trivial, trivial⟩, trivial⟩ (flat_addNode hg.flat) (live_addNode _ _ _ (cur_mem hi.st)) hext ?_
      (fun m hm => .inl hm) (fun m hm => hm) (fun _ => ?_), .of hext, ⟨hlive, by rw [hview]; simp [hr], by rw [hview]; simp [hr],
      by rw [hview]; exact hw, by rw [hview]; exact hs, ?_⟩, by rw [hview], by rw [hview]; simp [hr]⟩
  · intro m hm
    rw [addNode_node _ _ _ _ (Nat.ne_of_lt (live_lt hi.st hm))]
    exact .refl _
  · refine ⟨⟨by rw [hview]; exact ht, by rw [hview]; trivial⟩, by rw [hview]; simp [hr], by rw [hsr]; simp, .inl (by rw [hsr]; simp),
      by rw [hview]; simp [hr], by rw [hview]; simp [hr], by rw [hview]; simp [hr], ?_, ?_, by rw [hsr]; simp⟩
    · rw [hview]; intro _; exact ⟨rfl, by show (name, width ty) ∈ C.ins; rw [hw]; exact hin⟩
    · rw [hview]; intro _; show ty.isSigned = C.sg (width ty); rw [hw, hs]; exact hsg
  · intro inp hf t h0
    have hlt : inp name t.toNat < 2 ^ k := hf (name, k) hin t.toNat
    rw [BitVec.toNat_ofNat, Nat.mod_eq_of_lt hlt]
    have := HwVal.input (V := (w.addNode w.cur r).view) (inp := inp) (n := w.next) (k := t.toNat) (by rw [hview]) (by rw [hview])
    rw [hview, Int.toNat_of_nonneg h0] at this
    exact this

theorem FGood.output (hg : FGood F C N w) {ty : DFType} (ht : TypeOK ty) {name : String}
    (hsg : C.exempt (width ty) = false → ty.isSigned = C.sg (width ty)) :
    FDoes F C (call1 F (.output false name ty)) w (fun o => o :: N) (fun o w' => Pend w' o name ty) := by
  have hi := hg.inv
  set r : NodeRec := ⟨.OUT, .none, ty, .stream, name, w.cur, [], []⟩ with hr
  have hx' : w.exec F (.output false name ty) = .ok (w.addNode w.cur r, [w.next]) := by
    unfold World.exec
    rw [if_neg (by simp [Cmd.vars])]
    rfl
  obtain ⟨hlive, hview, hext⟩ := addNode_view (r := r) hi (cur_mem hi.st)
  have hnode := addNode_new w w.cur r
  refine ⟨w.next, w.addNode w.cur r, by unfold call1; rw [hx'],
    hg.extend hx' ⟨⟨trivial, trivial, trivial⟩, trivial⟩ (flat_addNode hg.flat) (live_addNode _ _ _ (cur_mem hi.st)) hext ?_
      ?_ (fun m hm => by simp [hm]) (fun h => absurd (by simp) h), .of hext, ⟨hlive, by rw [hnode], by rw [hnode], by rw [hnode]⟩⟩
  · intro m hm
    rw [addNode_node _ _ _ _ (Nat.ne_of_lt (live_lt hi.st hm))]
    exact .refl _
  · intro m hm
    rcases List.mem_cons.mp hm with rfl | hm
    · right
      rw [hnode]
      exact ⟨rfl, hlive, rfl, ht, rfl, rfl, hsg⟩
    · exact .inl hm

/-- Outputs and undefined variables are not read. -/
theorem FGood.no_outs (hg : FGood F C N w) {n : Nat} (hn : w.Live n) (ho : (w.node n).op = .OUT) : (w.node n).outs = [] := by
  rw [List.eq_nil_iff_forall_not_mem]
  intro c hc
  obtain ⟨-, q1, q2, q3⟩ := hg.inv.ch.out n hn c hc
  by_cases hN : (w.chan c).tgt ∈ N
  · rw [(hg.pend _ hN).2.2.2.2.1] at q3; cases q3
  · have := (hg.ok _ q2 hN).srcs n (by rw [srcs_eq]; exact List.mem_map.mpr ⟨c, q3, q1⟩)
    exact this.1 ho

/-- Connecting an output. -/
theorem FGood.connect {o a k : Nat} (hg : FGood F C (o :: N) w) {name : String} {ty : DFType} (hP : Pend w o name ty) {s : Bool} {d : Int}
    {e : Env → Int → BitVec k} (hs : SVal C w a s d e) (hwo : width ty = k) (hso : ty.isSigned = s) :
    FDoes F C (call F (.connect o a)) w (fun _ => N.filter (· ≠ o)) (fun _ w' => OVal C w' o name s d e) := by
  have hi := hg.inv
  have lo := hP.live
  have ho := hP.isOut
  obtain ⟨-, -, tyo, dato, io, sgo⟩ := hg.pend o (by simp)
  have oo := hg.no_outs lo ho
  have hne : a ≠ o := by rintro rfl; exact hs.notOut ho
  set w' := w.link a o 0 true with hw'
  have hx : w.exec F (.connect o a) = .ok (w', []) := by
    unfold World.exec
    rw [if_neg (exec_guard hi (c := .connect o a) (by simp [Cmd.vars, lo, hs.live]))]
    obtain ⟨g, hst, hid⟩ := hg.flat
    have hgm : g ∈ w.stack := by rw [hst]; simp
    have hk0 : w.kernel 0 = some g := by rw [← hid]; exact kernel_eq hi.st hgm
    have mem : ∀ {m : Nat}, w.Live m → m ∈ g.nodes := by
      rintro m ⟨g', h1, h2⟩
      rw [hst] at h1
      rw [← List.mem_singleton.mp h1]; exact h2
    have hc : w.addChannel (w.node o).kern a o 0 true = .ok w' := by
      unfold World.addChannel
      rw [hg.kern lo, hk0]
      have : w.kernel (if (w.node a).kind.isConst then 0 else 0) = some g := by rw [ite_self]; exact hk0
      rw [this]
      simp only
      rw [if_pos ⟨mem hs.live, mem lo⟩]
    simp only [hc]
    rfl
  have hp : Proper w (.connect o a) :=
    ⟨⟨trivial, ⟨by rw [ho]; simp, fun hd => hne (dep_no_outs hi oo hd)⟩, .inl ho⟩, trivial⟩
  have hf : ∀ m, FieldsEq (w.node m) (w'.node m) := by
    intro m
    obtain ⟨h1, h2, h3, h4, h5, h6⟩ := link_fields w a o 0 true m
    exact ⟨h1, h6, h5, h2, h4, h3⟩
  have hins : ∀ m, w.Live m → insV w' m = if m = o then insV w m ++ [(a, true)] else insV w m := by
    intro m hm
    rw [insV_link hi hm]
  have hview : ∀ m, w.Live m → m ≠ o → w'.view m = w.view m := by
    intro m hm hmo
    exact view_congr (hf m) (by rw [hins m hm, if_neg hmo])
  have hvo : (w'.view o).ins = [(a, true)] := by
    rw [view_ins, hins o lo, if_pos rfl]
    unfold insV; rw [io]; rfl
  have hsrclive : ∀ m, w.Live m → ∀ x ∈ (w.view m).srcs, w.Live x := by
    intro m hm x hx
    rw [srcs_eq] at hx
    obtain ⟨ch, hch, rfl⟩ := List.mem_map.mp hx
    exact (hi.ch.inn m hm ch hch).2.2.1
  have hext : FExt w w' := by
    refine ⟨fun m hm => hm, fun m hm hc => hview m hm ?_, fun m _ => ⟨(hf m).1, (hf m).2.2.2.2.1, (hf m).2.2.1⟩⟩
    rintro rfl
    refine hc ho ?_
    rw [view_ins]; unfold insV; rw [io]; rfl
  have hsr : (w'.view o).srcs = [a] := by unfold NodeV.srcs; rw [hvo]; rfl
  have hopn : (w'.view o).op = .OUT := (hf o).1.trans ho
  have htyn : (w'.view o).ty = ty := (hf o).2.2.1.trans hP.ty
  have hvs : w'.view a = w.view a := hview a hs.live hne
  have hst : w'.stack = w.stack := rfl
  have hnd : (w'.view o).data = .none := (hf o).2.1.trans dato
  refine ⟨[], w', by unfold call; rw [hx], ⟨Hist.snoc (.connect o a) hg.hist hp hx, hg.flat, ?_, ?_⟩, hext, ⟨lo, hopn, by rw [hvo]; simp,
    (hf o).2.2.2.2.1.trans hP.name, by rw [htyn]; exact hwo, by rw [htyn]; exact hso, ?_⟩⟩
  · intro n hl hN
    by_cases hno : n = o
    · subst hno
      refine ⟨⟨by rw [htyn, ← hP.ty]; exact tyo, ?_⟩, by rw [hopn]; simp, ?_, .inl (by rw [hsr]; simp), fun _ => by rw [hvo]; rfl,
        by rw [hnd]; simp, by rw [hopn]; simp, by rw [hopn]; simp, by rw [htyn, ← hP.ty]; exact sgo, ?_⟩
      · rw [hopn]
        simp only
        rw [hsr]
        simp only [List.mem_cons, List.not_mem_nil, or_false]
        rintro x rfl
        rw [hvs, htyn]
        exact ⟨by rw [hs.wid, hwo], by rw [hs.sgn, hso]⟩
      · rw [hsr]
        simp only [List.mem_cons, List.not_mem_nil, or_false]
        rintro x rfl
        rw [hvs]; exact ⟨hs.notOut, hs.notNone⟩
      · rw [hsr]
        simp only [List.mem_cons, List.not_mem_nil, or_false]
        rintro x rfl hxe
        refine ⟨rfl, ?_⟩
        rw [hvs, hs.wid] at hxe
        rw [htyn, hwo]; exact hxe
    · have hl' : w.Live n := hl
      refine (hg.ok n hl' ?_).same (hview n hl' hno) fun x hxm => hview x (hsrclive n hl' x hxm) ?_
      · intro hm
        rcases List.mem_cons.mp hm with h | h
        · exact hno h
        · exact hN (by simp [h, hno])
      · rintro rfl
        have := (hg.ok n hl' (by
          intro hm
          rcases List.mem_cons.mp hm with h | h
          · exact hno h
          · exact hN (by simp [h, hno]))).srcs _ hxm
        exact this.1 ho
  · intro n hn
    simp only [List.mem_filter, decide_eq_true_eq] at hn
    obtain ⟨a1, a2, a3, a4, a5, a6⟩ := hg.pend n (by simp [hn.1])
    obtain ⟨e1, e2, e3, -⟩ := hf n
    have hv := congrArg NodeV.ins (hview n a1 hn.2)
    have hin : (w'.node n).ins = [] := by
      have : (w'.view n).ins = [] := by
        rw [hv, view_ins]; unfold insV; rw [a5]; rfl
      rw [view_ins] at this
      exact List.map_eq_nil_iff.mp this
    exact ⟨a1, by rw [e1]; exact a2, by rw [e3]; exact a3, by rw [e2]; exact a4, hin, by rw [e3]; exact a6⟩
  · intro inp hfit t ht
    exact .out hopn hsr (hwVal_ext hi hext (hs.val inp hfit t ht) hs.live)

/-! ### Constants -/

theorem isConst_sval (hg : FGood F C N w) {n : Nat} {ty : DFType} {v : Word} (h : w.IsConst n ty v) {k : Nat} (hw : width ty = k) {s : Bool}
    (hs : ty.isSigned = s) (d : Int) : SVal C w n s d (fun _ _ => BitVec.ofInt k (constInt ty v)) := by
  have hop : (w.view n).op = .CONST := h.op
  have hty : (w.view n).ty = ty := h.ty
  refine ⟨h.live, by rw [hop]; simp, by rw [hop]; simp, by rw [hty]; exact hw, by rw [hty]; exact hs, fun inp _ t _ => ?_⟩
  have := HwVal.const (V := w.view) (inp := inp) (n := n) (t := t) hop (show (w.view n).kind = .const v from h.val)
  rw [hty] at this
  rw [BitVec.toNat_ofInt]
  unfold pattern at this
  rw [hw] at this
  convert this using 2
  push_cast
  rfl

/-- `createOrUseConst`. -/
theorem FGood.mkConst (hg : FGood F C N w) {c : Cmd} {ty : DFType} {v : Word} (ht : TypeOK ty)
    (hsg : C.exempt (width ty) = false → ty.isSigned = C.sg (width ty)) (hex : w.exec F c = retOne (w.createOrUseConst ty v)) (hp : Proper w c) :
    FDoes F C (call1 F c) w (fun _ => N) (fun n w' => w'.IsConst n ty v) := by
  have hi := hg.inv
  obtain ⟨g0, hg0, h00⟩ := hi.st.top
  have hk0 : w.kernel 0 = some g0 := by rw [← h00]; exact kernel_eq hi.st hg0
  obtain ⟨w', n, hcr⟩ : ∃ w' n, w.createOrUseConst ty v = .ok (w', n) := by
    unfold World.createOrUseConst
    rw [hk0]
    simp only
    cases g0.starts.find? (w.isConstNode ty v) with
    | some n => exact ⟨_, _, rfl⟩
    | none => exact ⟨_, _, rfl⟩
  obtain ⟨hc, hext⟩ := createOrUseConst_extends hi hcr
  have hx : w.exec F c = .ok (w', [n]) := by rw [hex, hcr]; rfl
  have hcall : call1 F c w = .ok (n, w') := by unfold call1; rw [hx]
  obtain ⟨hk, g, hgk, (⟨rfl, -, -⟩ | ⟨-, en, ew⟩)⟩ := createOrUseConst_ok hcr
  · exact ⟨n, w', hcall, hg, .refl _, hc⟩
  · have hview : w'.view w.next = ⟨.CONST, .none, ty, .const v, "", []⟩ := by
      rw [ew]; exact (addNode_view hi hk).2.1
    have hsr : (w'.view w.next).srcs = [] := by rw [hview]; rfl
    refine ⟨n, w', hcall, hg.extend hx hp (by rw [ew]; exact flat_addNode hg.flat) (by rw [ew]; exact live_addNode _ _ _ hk) hext ?_
      (fun m hm => .inl hm) (fun m hm => hm) (fun _ => ?_), .of hext, hc⟩
    · intro m hm
      rw [ew, addNode_node _ _ _ _ (Nat.ne_of_lt (live_lt hi.st hm))]
      exact .refl _
    · refine ⟨⟨by rw [hview]; exact ht, by rw [hview]; exact ht.2.2⟩, by rw [hview]; simp, by rw [hsr]; simp, .inl (by rw [hsr]; simp),
        by rw [hview]; simp, by rw [hview]; simp, by rw [hview]; simp, by rw [hview]; simp, by rw [hview]; exact hsg, by rw [hsr]; simp⟩

theorem FGood.const (hg : FGood F C N w) {ty : DFType} (ht : TypeOK ty) (hsg : C.exempt (width ty) = false → ty.isSigned = C.sg (width ty))
    (v : Word) : FDoes F C (call1 F (.const ty v)) w (fun _ => N) (fun n w' => w'.IsConst n ty v) := by
  refine hg.mkConst ht hsg ?_ ⟨⟨trivial, trivial, trivial⟩, trivial⟩
  unfold World.exec
  rw [if_neg (by simp [Cmd.vars])]

/-- Operators on constants are computed at once. -/
theorem FGood.fold (hg : FGood F C N w) {op : OpType} {a b : Nat} {ta tb : DFType} {x y v : Word} (ha : w.IsConst a ta x) (hb : w.IsConst b tb y)
    (hop : isBinaryOp op = true) (hf : foldBinary F op ta x y = some (.ok v)) :
    FDoes F C (call1 F (.bin op a b)) w (fun _ => N) (fun n w' => w'.IsConst n ta v) := by
  have hna : (w.view a).op ≠ .OUT := by rw [show (w.view a).op = .CONST from ha.op]; simp
  have hn := hg.ok a ha.live (hg.notN hna)
  have hty : (w.view a).ty = ta := ha.ty
  refine hg.mkConst (ty := ta) (v := v) (by rw [← hty]; exact hn.prod.1) (by rw [← hty]; exact hn.sign) ?_ ⟨⟨trivial, trivial, trivial⟩, trivial⟩
  unfold World.exec
  rw [if_neg (exec_guard hg.inv (c := .bin op a b) (by simp [Cmd.vars, ha.live, hb.live]))]
  simp only [if_pos hop, ha.val, hb.val, ha.ty, hf]

end

end Verif.Flat
