import Verif.Kernels.Ports
import Verif.Flow.HwTotal
/-
Programs that build one kernel without instances, and a Hoare logic for them in terms of `HwVal`: what every variable's stream is in
hardware, as a function of the streams at the input ports.  Signed types, offsets and several outputs are covered (the rules of
`Verif.Kernels` cover instances, but unsigned types, one output and no offsets).
-/
namespace Verif.Flat
open Verif.Dfcxx Verif.Flow Verif.Kernels

/-- What is fed to the input ports. -/
abbrev Env := String → Nat → Nat

/-- The ports are fed patterns of their widths. -/
def Fits (ins : List (String × Nat)) (inp : Env) : Prop := ∀ i ∈ ins, ∀ t, inp i.1 t < 2 ^ i.2

/-- What is known about a kernel: whether it may contain signed adders, subtractors and multipliers (then these must have positive
latency), whether it may contain offsets, its input ports, the signedness of every width, and the widths that are exempt from this because their streams are never
buffered. -/
structure Cfg where
  signed : Bool
  offs : Bool
  ins : List (String × Nat)
  sg : Nat → Bool
  exempt : Nat → Bool

/-- The least latency an operator needs. -/
def unitL (P : Bool) : OpType → Nat
  | .ADD | .SUB | .MUL => if P then 1 else 0
  | _ => 0

/-- `Produced` depends on a node and its operands. -/
theorem produced_same {V V' : Nat → NodeV} {L n : Nat} (h : ProducedFor TypeOK V L n) (hn : V' n = V n) (hs : ∀ s ∈ (V n).srcs, V' s = V s) :
    ProducedFor TypeOK V' L n := by
  unfold ProducedFor at h ⊢
  rw [hn]
  refine ⟨h.1, ?_⟩
  have h2 := h.2
  have pair : ∀ {a b : Nat}, (V n).srcs = [a, b] → V' a = V a ∧ V' b = V b :=
    fun e => ⟨hs _ (by rw [e]; simp), hs _ (by rw [e]; simp)⟩
  cases ho : (V n).op <;> rw [ho] at h2 <;> simp only at h2 ⊢
  case OUT | SHR | CAST | OFFSET => intro s e; rw [hs s e]; exact h2 s e
  case CONST => exact h2
  case ADD | SUB | MUL | LESS | LESSEQ | GREATER | GREATEREQ | EQ | NEQ => exact h2
  case SHL => exact ⟨h2.1, fun s e => by rw [hs s e]; exact h2.2 s e⟩
  case NOT => exact ⟨h2.1, h2.2.1, fun s e => by rw [hs s e]; exact h2.2.2 s e⟩
  case AND | OR | XOR | CAT =>
    refine ⟨h2.1, fun a b e => ?_⟩
    rw [(pair e).1, (pair e).2]
    exact h2.2 a b e
  case BITS =>
    intro l r e
    obtain ⟨a1, a2, a3, a4⟩ := h2 l r e
    exact ⟨a1, a2, a3, fun s e => by rw [hs s e]; exact a4 s e⟩
  case MUX =>
    intro c alts e
    obtain ⟨b1, b2, b3⟩ := h2 c alts e
    refine ⟨by rw [hs c (by rw [e]; simp)]; exact b1, b2, fun a ha => ?_⟩
    rw [hs a (by rw [e]; simp [ha])]
    exact b3 a ha

/-- More latency does no harm to arithmetic units. -/
theorem produced_mono {V : Nat → NodeV} {P : Bool} {L n : Nat} (h : ProducedFor TypeOK V (unitL P (V n).op) n) (hL : unitL P (V n).op ≤ L)
    (hc : (V n).op = .CAST → L = 0) : ProducedFor TypeOK V L n := by
  unfold ProducedFor at h ⊢
  refine ⟨h.1, ?_⟩
  have h2 := h.2
  cases ho : (V n).op <;> rw [ho] at h2 hL <;> simp only at h2 ⊢
  case ADD | SUB | MUL => exact h2.imp (fun h => Nat.lt_of_lt_of_le h hL) id
  case CAST => rw [hc ho]; exact h2
  all_goals exact h2

/-- The nodes of the kernels considered. -/
structure FNode (C : Cfg) (V : Nat → NodeV) (n : Nat) : Prop where
  prod : ProducedFor TypeOK V (unitL C.signed (V n).op) n
  notNone : (V n).op ≠ .NONE
  srcs : ∀ s ∈ (V n).srcs, (V s).op ≠ .OUT ∧ (V s).op ≠ .NONE
  few : (V n).srcs.length ≤ 128 ∨ ∀ s ∈ (V n).srcs.tail, (V s).op = .CONST
  out : (V n).op = .OUT → (V n).ins.length = 1
  dist : ∀ j, (V n).data = .offset j → -(2^31 : Int) ≤ j ∧ j < 2^31
  offTy : (V n).op = .OFFSET → C.offs = true ∧ ∀ s ∈ (V n).srcs, (V s).ty = (V n).ty
  inn : (V n).op = .IN → (V n).kind = .stream ∧ ((V n).name, width (V n).ty) ∈ C.ins
  sign : C.exempt (width (V n).ty) = false → (V n).ty.isSigned = C.sg (width (V n).ty)
  calm : ∀ s ∈ (V n).srcs, C.exempt (width (V s).ty) = true → (V n).srcs = [s] ∧ C.exempt (width (V n).ty) = true

theorem FNode.same {C : Cfg} {V V' : Nat → NodeV} {n : Nat} (h : FNode C V n) (hn : V' n = V n) (hs : ∀ s ∈ (V n).srcs, V' s = V s) :
    FNode C V' n := by
  refine ⟨?_, by rw [hn]; exact h.notNone, ?_, ?_, by rw [hn]; exact h.out, by rw [hn]; exact h.dist, ?_, by rw [hn]; exact h.inn,
    by rw [hn]; exact h.sign, ?_⟩
  · rw [hn]; exact produced_same h.prod hn hs
  · rw [hn]; intro s e; rw [hs s e]; exact h.srcs s e
  · rw [hn]
    exact h.few.imp id fun k s e => by rw [hs s (List.mem_of_mem_tail e)]; exact k s e
  · rw [hn]; intro ho; refine ⟨(h.offTy ho).1, fun s e => ?_⟩; rw [hs s e]; exact (h.offTy ho).2 s e
  · rw [hn]; intro s e; rw [hs s e]; exact h.calm s e

/-- A state the rules apply in.  `N`: the outputs not yet connected. -/
structure FGood (F : FloatOps) (C : Cfg) (N : List Nat) (w : World) : Prop where
  hist : Hist F Proper World.init w
  flat : ∃ g, w.stack = [g] ∧ g.id = 0
  ok : ∀ n, w.Live n → n ∉ N → FNode C w.view n
  pend : ∀ n ∈ N, w.Live n ∧ (w.node n).op = .OUT ∧ TypeOK (w.node n).ty ∧ (w.node n).data = .none ∧ (w.node n).ins = [] ∧
    (C.exempt (width (w.node n).ty) = false → (w.node n).ty.isSigned = C.sg (width (w.node n).ty))

/-- Only unconnected outputs change. -/
structure FExt (w w' : World) : Prop where
  live : ∀ m, w.Live m → w'.Live m
  same : ∀ m, w.Live m → ((w.view m).op = .OUT → (w.view m).ins ≠ []) → w'.view m = w.view m
  desc : ∀ m, w.Live m → (w'.view m).op = (w.view m).op ∧ (w'.view m).name = (w.view m).name ∧ (w'.view m).ty = (w.view m).ty

theorem FExt.refl (w : World) : FExt w w := ⟨fun _ h => h, fun _ _ _ => rfl, fun _ _ => ⟨rfl, rfl, rfl⟩⟩

theorem FExt.trans {w w1 w2 : World} (h : FExt w w1) (h' : FExt w1 w2) : FExt w w2 := by
  refine ⟨fun m hm => h'.live m (h.live m hm), fun m hm hp => ?_, fun m hm => ?_⟩
  swap
  · obtain ⟨a1, a2, a3⟩ := h.desc m hm
    obtain ⟨b1, b2, b3⟩ := h'.desc m (h.live m hm)
    exact ⟨b1.trans a1, b2.trans a2, b3.trans a3⟩
  have e := h.same m hm hp
  rw [h'.same m (h.live m hm) (by rw [e]; exact hp), e]

theorem FExt.of {w w' : World} (h : Extends w w') : FExt w w' := 
  ⟨h.live, fun m hm _ => h.same m hm, fun m hm => by rw [h.same m hm]; exact ⟨rfl, rfl, rfl⟩⟩

/-- Streams do not change. -/
theorem hwVal_ext {w w' : World} (hi : Inv w) (hx : FExt w w') {inp : Env} {n : Nat} {t : Int} {a : Nat} (h : HwVal w.view inp n t a) :
    w.Live n → HwVal w'.view inp n t a := by
  have src : ∀ {n s : Nat}, w.Live n → s ∈ (w.view n).srcs → w.Live s := by
    intro n s hn hs
    rw [srcs_eq] at hs
    obtain ⟨ch, hch, rfl⟩ := List.mem_map.mp hs
    exact (hi.ch.inn n hn ch hch).2.2.1
  induction h with
  | @input n k h hk =>
    intro hl
    have e := hx.same n hl (by rw [h]; simp)
    rw [← e] at h hk ⊢
    exact .input h hk
  | @scalar n t h hk =>
    intro hl
    have e := hx.same n hl (by rw [h]; simp)
    rw [← e] at h hk ⊢
    exact .scalar h hk
  | @const n t c h hk =>
    intro hl
    have e := hx.same n hl (by rw [h]; simp)
    rw [← e] at h hk ⊢
    exact .const h hk
  | @out n s t a h hs ha ih =>
    intro hl
    have e := hx.same n hl (fun _ hn => by rw [NodeV.srcs, hn] at hs; cases hs)
    have hls := src hl (s := s) (by rw [hs]; simp)
    rw [← e] at h hs
    exact .out h hs (ih hls)
  | @offset n s t a k h hd hs ha ih =>
    intro hl
    have e := hx.same n hl (by rw [h]; simp)
    have hls := src hl (s := s) (by rw [hs]; simp)
    rw [← e] at h hs hd
    exact .offset h hd hs (ih hls)
  | @mux n c alts t i s a h hs ht hc hi ha ihc iha =>
    intro hl
    have e := hx.same n hl (by rw [h]; simp)
    have hlc := src hl (s := c) (by rw [hs]; simp)
    have hls := src hl (s := s) (by rw [hs]; simp [List.mem_of_getElem? hi])
    rw [← e] at h hs
    exact .mux h hs ht (ihc hlc) hi (iha hls)
  | @op n t a vals ht hs ho ih =>
    intro hl
    have e := hx.same n hl (fun h => absurd h (hwMeaning_isOp ho).2.2.1)
    refine .op vals ht (by rw [e]; exact fun s hm => ih s hm (src hl hm)) ?_
    rw [e, ← ho]
    congr 1
    refine List.map_congr_left fun s hm => ?_
    -- an operand keeps its type
    have hv := hs s hm
    have hp : (w.view s).op = .OUT → (w.view s).ins ≠ [] := by
      intro ho' hn
      generalize vals s = q at hv
      generalize t = t' at hv
      cases hv with
      | input h1 => rw [ho'] at h1; cases h1
      | scalar h1 => rw [ho'] at h1; cases h1
      | const h1 => rw [ho'] at h1; cases h1
      | out h1 h2 => rw [NodeV.srcs, hn] at h2; cases h2
      | offset h1 => rw [ho'] at h1; cases h1
      | mux h1 => rw [ho'] at h1; cases h1
      | op _ _ _ ho2 => exact absurd ho' (hwMeaning_isOp ho2).2.2.1
    rw [hx.same s (src hl hm) hp]

section
variable {F : FloatOps} {C : Cfg} {N : List Nat} {w : World}

theorem FGood.inv (hg : FGood F C N w) : Inv w := (wellUsed_hist (hg.hist.mono fun _ _ h => h.1)).1

theorem FGood.cur (hg : FGood F C N w) : w.cur = 0 := by
  obtain ⟨g, h1, h2⟩ := hg.flat
  unfold World.cur
  rw [h1]; exact h2

/-- There is one kernel. -/
theorem FGood.kern (hg : FGood F C N w) {n : Nat} (h : w.Live n) : (w.node n).kern = 0 := by
  obtain ⟨g, h1, h2⟩ := hg.flat
  obtain ⟨g', h3, h4⟩ := h
  rw [(hg.inv.st.own g' h3 n h4).2]
  rw [h1] at h3
  rw [List.mem_singleton.mp h3]; exact h2

/-! ### Assertions -/

/-- Variable `n`, of `k` bits and signedness `s`, may be used as an operand, and from element `d` on its stream is `e`. -/
structure SVal {k : Nat} (C : Cfg) (w : World) (n : Nat) (s : Bool) (d : Int) (e : Env → Int → BitVec k) : Prop where
  live : w.Live n
  notOut : (w.view n).op ≠ .OUT
  notNone : (w.view n).op ≠ .NONE
  wid : width (w.view n).ty = k
  sgn : (w.view n).ty.isSigned = s
  val : ∀ inp, Fits C.ins inp → ∀ t, d ≤ t → HwVal w.view inp n t (e inp t).toNat

/-- ... and it is a stream. -/
structure Str {k : Nat} (C : Cfg) (w : World) (n : Nat) (s : Bool) (d : Int) (e : Env → Int → BitVec k) : Prop where
  val : SVal C w n s d e
  kind : (w.view n).kind = .stream
  notConst : (w.view n).op ≠ .CONST

/-- An output that shows `e` from element `d` on. -/
structure OVal {k : Nat} (C : Cfg) (w : World) (o : Nat) (name : String) (s : Bool) (d : Int) (e : Env → Int → BitVec k) : Prop where
  live : w.Live o
  isOut : (w.view o).op = .OUT
  conn : (w.view o).ins ≠ []
  name : (w.view o).name = name
  wid : width (w.view o).ty = k
  sgn : (w.view o).ty.isSigned = s
  val : ∀ inp, Fits C.ins inp → ∀ t, d ≤ t → HwVal w.view inp o t (e inp t).toNat

/-- An output not yet connected. -/
structure Pend (w : World) (o : Nat) (name : String) (ty : DFType) : Prop where
  live : w.Live o
  isOut : (w.node o).op = .OUT
  name : (w.node o).name = name
  ty : (w.node o).ty = ty

section
variable {k : Nat} {w' : World} {n : Nat} {s : Bool} {d : Int} {e : Env → Int → BitVec k}

theorem SVal.mono (h : SVal C w n s d e) (hg : FGood F C N w) (hx : FExt w w') : SVal C w' n s d e := by
  have e := hx.same n h.live fun ho => absurd ho h.notOut
  exact ⟨hx.live n h.live, by rw [e]; exact h.notOut, by rw [e]; exact h.notNone, by rw [e]; exact h.wid, by rw [e]; exact h.sgn,
    fun inp hf t ht => hwVal_ext hg.inv hx (h.val inp hf t ht) h.live⟩

theorem Str.mono (h : Str C w n s d e) (hg : FGood F C N w) (hx : FExt w w') : Str C w' n s d e := by
  have e := hx.same n h.val.live fun ho => absurd ho h.val.notOut
  exact ⟨h.val.mono hg hx, by rw [e]; exact h.kind, by rw [e]; exact h.notConst⟩

theorem OVal.mono {name : String} (h : OVal C w n name s d e) (hg : FGood F C N w) (hx : FExt w w') : OVal C w' n name s d e := by
  have e := hx.same n h.live fun _ => h.conn
  exact ⟨hx.live n h.live, by rw [e]; exact h.isOut, by rw [e]; exact h.conn, by rw [e]; exact h.name, by rw [e]; exact h.wid,
    by rw [e]; exact h.sgn, fun inp hf t ht => hwVal_ext hg.inv hx (h.val inp hf t ht) h.live⟩

theorem IsConst.mono {ty : DFType} {v : Word} (h : w.IsConst n ty v) (_ : FGood F C N w) (hx : FExt w w') : w'.IsConst n ty v := by
  have e := hx.same n h.live fun ho => by
    have h1 : (w.view n).op = .CONST := h.op
    rw [h1] at ho; cases ho
  exact ⟨hx.live n h.live, (congrArg NodeV.op e).trans h.op, (congrArg NodeV.ty e).trans h.ty, (congrArg NodeV.kind e).trans h.val⟩

theorem Pend.mono {name : String} {ty : DFType} (h : Pend w n name ty) (_ : FGood F C N w) (hx : FExt w w') : Pend w' n name ty := by
  obtain ⟨a1, a2, a3⟩ := hx.desc n h.live
  exact ⟨hx.live n h.live, a1.trans h.isOut, a2.trans h.name, a3.trans h.ty⟩

theorem SVal.later {d' : Int} (h : SVal C w n s d e) (hd : d ≤ d') : SVal C w n s d' e :=
  ⟨h.live, h.notOut, h.notNone, h.wid, h.sgn, fun inp hf t ht => h.val inp hf t (by omega)⟩

theorem Str.later {d' : Int} (h : Str C w n s d e) (hd : d ≤ d') : Str C w n s d' e := ⟨h.val.later hd, h.kind, h.notConst⟩

theorem SVal.congr {e' : Env → Int → BitVec k} (h : SVal C w n s d e) (he : ∀ inp, Fits C.ins inp → ∀ t, d ≤ t → e inp t = e' inp t) :
    SVal C w n s d e' :=
  ⟨h.live, h.notOut, h.notNone, h.wid, h.sgn, fun inp hf t ht => by rw [← he inp hf t ht]; exact h.val inp hf t ht⟩

theorem Str.congr {e' : Env → Int → BitVec k} (h : Str C w n s d e) (he : ∀ inp, Fits C.ins inp → ∀ t, d ≤ t → e inp t = e' inp t) :
    Str C w n s d e' := ⟨h.val.congr he, h.kind, h.notConst⟩

theorem FGood.notN (hg : FGood F C N w) {n : Nat} (h : (w.view n).op ≠ .OUT) : n ∉ N := fun hm => h (hg.pend n hm).2.1

theorem SVal.node (h : SVal C w n s d e) (hg : FGood F C N w) : FNode C w.view n := hg.ok n h.live (hg.notN h.notOut)

theorem SVal.tyOK (h : SVal C w n s d e) (hg : FGood F C N w) : TypeOK (w.view n).ty := (h.node hg).prod.1

end

/-! ### Programs -/

/-- Code `p`, run in `w`, succeeds, changes nothing that was there, leaves the outputs `M r` unconnected and satisfies `Q`. -/
def FDoes {α : Type} (F : FloatOps) (C : Cfg) (p : Build α) (w : World) (M : α → List Nat) (Q : α → World → Prop) : Prop :=
  ∃ r w', p w = .ok (r, w') ∧ FGood F C (M r) w' ∧ FExt w w' ∧ Q r w'

theorem FDoes.pure {α : Type} {a : α} {M : α → List Nat} {Q : α → World → Prop} (hg : FGood F C (M a) w) (h : Q a w) :
    FDoes F C (pure a) w M Q := ⟨a, w, rfl, hg, .refl w, h⟩

theorem FDoes.bind {α β : Type} {p : Build α} {f : α → Build β} {M : α → List Nat} {M' : β → List Nat} {Q : α → World → Prop}
    {R : β → World → Prop} (h : FDoes F C p w M Q)
    (hf : ∀ r w1, FGood F C (M r) w1 → FExt w w1 → Q r w1 → FDoes F C (f r) w1 M' R) : FDoes F C (p >>= f) w M' R := by
  obtain ⟨r, w1, h1, h2, h3, h4⟩ := h
  obtain ⟨r', w2, g1, g2, g3, g4⟩ := hf r w1 h2 h3 h4
  refine ⟨r', w2, ?_, g2, h3.trans g3, g4⟩
  show StateT.bind p f w = _
  unfold StateT.bind
  rw [h1]
  exact g1

theorem FDoes.weaken {α : Type} {p : Build α} {M : α → List Nat} {Q R : α → World → Prop} (h : FDoes F C p w M Q)
    (hqr : ∀ r w1, FGood F C (M r) w1 → FExt w w1 → Q r w1 → R r w1) : FDoes F C p w M R := by
  obtain ⟨r, w1, h1, h2, h3, h4⟩ := h
  exact ⟨r, w1, h1, h2, h3, hqr r w1 h2 h3 h4⟩

/-- Code over a list: results that satisfy a relation stable under later code. -/
theorem forEach_does {α β : Type} {f : α → Build β} {R : α → β → World → Prop}
    (hmono : ∀ a b w w', FGood F C N w → R a b w → FExt w w' → R a b w') :
    ∀ (l : List α) (w : World), FGood F C N w →
      (∀ a ∈ l, ∀ w1, FGood F C N w1 → FExt w w1 → FDoes F C (f a) w1 (fun _ => N) (R a)) →
      FDoes F C (forEach f l) w (fun _ => N) (fun bs w' => List.Forall₂ (fun a b => R a b w') l bs)
  | [], w, hg, _ => FDoes.pure hg .nil
  | a :: l, w, hg, h => by
    unfold forEach
    refine (h a (by simp) w hg (.refl w)).bind fun b w1 g1 s1 q1 => ?_
    refine (forEach_does hmono l w1 g1 fun a' ha' w2 g2 s2 => h a' (by simp [ha']) w2 g2 (s1.trans s2)).bind fun bs w2 g2 s2 q2 => ?_
    exact FDoes.pure g2 (.cons (hmono _ _ _ _ g1 q1 s2) q2)

end

end Verif.Flat
