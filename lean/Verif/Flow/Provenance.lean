import Verif.Flow.Core
import Verif.Sched.Calm
/-
What the buffers of a scheduled block hold: values of the types of the channels they were inserted for.  Values that are read only by
operations with one operand are not buffered, so their types do not matter for the sharing of buffer modules (C38).
-/
namespace Verif.Flow
open Verif.Dfcxx Verif.Sched

theorem insertBuffer_size {X Y : Prog} {c : Chan} {b : Int} (he : insertBuffer X c b = .ok Y) : Y.size = X.size + 1 := by
  unfold insertBuffer at he
  split at he
  · cases he
  · split at he
    · split at he
      · split at he
        · cases he; rfl
        · cases he
      · cases he
    · split at he
      · cases he
      · split at he
        · cases he; rfl
        · cases he

/-- The operand a channel belongs to. -/
theorem chan_operand {P : Prog} (hsm : Small P) {c : Chan} (hc : c ∈ channels P) (hv : (P.defn c.src).isConstantInput = false) {r : Nat}
    (h : (0 ≤ c.valInd ∧ ∃ args, P.defn c.tgt = .node args ∧ args[c.valInd.toNat]? = some r) ∨
      (c.valInd < 0 ∧ P.defn c.tgt = .output (some r))) : r ∈ (P.defn c.tgt).refs ∧ c.src = (nearestOf P r).1 := by
  obtain ⟨h1, h2⟩ := mem_channels.1 hc
  unfold inChans at h2
  rcases h with ⟨h0, args, hd, hr⟩ | ⟨h0, hd⟩
  · rw [hd] at h2
    obtain ⟨j, hj, e⟩ := List.mem_mapIdx.mp h2
    have hj128 : j < 128 := by
      by_contra hge
      have := hsm _ h1 args hd j args[j] (by omega) (List.getElem?_eq_getElem hj)
      rw [← e] at hv
      simp only at hv
      rw [this] at hv; cases hv
    have hw : c.valInd = j := by
      rw [← e]
      exact wrap8_small hj128
    rw [hw] at hr
    simp only [Int.toNat_natCast, List.getElem?_eq_getElem hj, Option.some.injEq] at hr
    refine ⟨by rw [hd, ← hr]; exact List.getElem_mem hj, ?_⟩
    rw [← e, ← hr]
  · rw [hd] at h2
    simp only [List.mem_singleton] at h2
    refine ⟨by rw [hd]; simp [Def.refs], by rw [h2]⟩

theorem insertBuffers_from {α : Type} {base : Nat → α} {P : Prog} (hsm : Small P)
    (hroot : ∀ i < P.size, ∀ v ∈ (P.defn i).refs, base (nearestOf P v).1 = base v) {Q : α → Prop} :
    ∀ (bs : List (Chan × Int)) {X Y : Prog}, TyInv base P X →
      (∀ p ∈ bs, p.1 ∈ channels P ∧ (P.defn p.1.src).isConstantInput = false ∧ Q (base p.1.src)) →
      (∀ v, P.size ≤ v → v < X.size → Q (valTy base X v)) → insertBuffers X bs = .ok Y →
      ∀ v, P.size ≤ v → v < Y.size → Q (valTy base Y v) := by
  intro bs
  induction bs with
  | nil => intro X Y _ _ hq he; simp only [insertBuffers] at he; cases he; exact hq
  | cons p bs ih =>
    intro X Y h hb hq he
    simp only [insertBuffers] at he
    split at he
    · cases he
    · rename_i X1 h1
      obtain ⟨c1, c2, c3⟩ := hb p (by simp)
      obtain ⟨t1, _⟩ := mem_channels.1 c1
      obtain ⟨h2, h3, h4⟩ := insertBuffer_tyInv h (Nat.lt_of_lt_of_le t1 h.size) h1
      obtain ⟨r, h5, h6⟩ := h4 t1
      obtain ⟨h7, h8⟩ := chan_operand hsm c1 c2 h5
      refine ih h2 (fun q hq => hb q (by simp [hq])) (fun v hv1 hv2 => ?_) he
      rw [h6 v hv2]
      split
      · rw [← hroot _ t1 r h7, ← h8]; exact c3
      · rw [insertBuffer_size h1] at hv2
        exact hq v hv1 (by omega)

theorem eraseFold_from {α : Type} {base : Nat → α} {P : Prog} (hoff : ∀ v < P.size, ∀ s k, P.defn v = .offset s k → base s = base v)
    (hnl : ∀ v < P.size, ∀ u m, P.defn v ≠ .latency u m) : ∀ (l : List Nat) {X : Prog}, TyInv base P X → (∀ p ∈ l, p < P.size) →
    (∀ v, valTy base (l.foldl eraseOne X) v = valTy base X v) ∧
      ∀ v u m, (l.foldl eraseOne X).defn v = .latency u m → ∃ w, X.defn v = .latency w m := by
  intro l
  induction l with
  | nil => intro X _ _; exact ⟨fun _ => rfl, fun v u m h => ⟨u, h⟩⟩
  | cons p l ih =>
    intro X h hl
    obtain ⟨h1, h2, h3⟩ := eraseOne_tyInv hoff hnl h (hl p (by simp))
    obtain ⟨h4, h5⟩ := ih h1 fun q hq => hl q (by simp [hq])
    refine ⟨fun v => (h4 v).trans (h2 v), fun v u m hd => ?_⟩
    obtain ⟨w, hw⟩ := h5 v u m hd
    exact h3 v w m hw

theorem eraseFold_size : ∀ (l : List Nat) (X : Prog), (l.foldl eraseOne X).size = X.size := by
  intro l
  induction l with
  | nil => intro X; rfl
  | cons p l ih =>
    intro X
    rw [List.foldl_cons, ih]
    unfold eraseOne
    split <;> rfl

/-- Every buffer holds values of the type of the source of a buffered channel. -/
theorem buffers_from {α : Type} {base : Nat → α} {P P' : Prog} (hP : WF P) (hb : ∀ v, P.size ≤ v → P.defn v = .erased)
    (hoff : ∀ v < P.size, ∀ s k, P.defn v = .offset s k → base s = base v) (hsm : Small P)
    (hroot : ∀ i < P.size, ∀ v ∈ (P.defn i).refs, base (nearestOf P v).1 = base v) {Q : α → Prop} {bs : List (Chan × Int)}
    (hbs : ∀ p ∈ bs, p.1 ∈ channels P ∧ (P.defn p.1.src).isConstantInput = false ∧ Q (base p.1.src))
    (h : applySchedule P bs = .ok P') {u s : Nat} {n : Int} (hu : u < P'.size) (hd : P'.defn u = .latency s n) :
    Q (valTy base P' u) := by
  have hT := applySchedule_tyInv hP hb hoff (fun p hp => (hbs p hp).1) h
  unfold applySchedule at h
  split at h
  · cases h
  · rename_i P1 h1
    cases h
    have hnl : ∀ v < P.size, ∀ u m, P.defn v ≠ .latency u m := fun v hv => (hP.fresh v hv).1
    have hlt : ∀ p ∈ bs, p.1.tgt < P.size := fun p hp => (chan_lt hP (hbs p hp).1).2
    have hT1 := insertBuffers_tyInv bs (TyInv.init (base := base) hP hb) hlt h1
    obtain ⟨g1, g2⟩ := eraseFold_from hoff hnl (List.range P.size) hT1 (fun p hp => List.mem_range.1 hp)
    have hsz : (eraseOffsets P.size P1).size = P1.size := eraseFold_size _ _
    rw [hsz] at hu
    show Q (valTy base ((List.range P.size).foldl eraseOne P1) u)
    rw [g1]
    obtain ⟨w, hw⟩ := g2 u s n hd
    refine insertBuffers_from hsm hroot bs (TyInv.init (base := base) hP hb) hbs (fun v h1 h2 => by omega) h1 u ?_ hu
    by_contra hlt'
    have hdi := hT1.defs u (by omega)
    unfold DefInv at hdi
    cases hq : P.defn u with
    | output o => cases o <;> (rw [hq] at hdi; simp [hw] at hdi)
    | node a => rw [hq] at hdi; simp [hw] at hdi
    | offset s k => rw [hq] at hdi; simp [hw] at hdi
    | latency u' m => exact hnl u (by omega) u' m hq
    | _ => rw [hq] at hdi; simp [hw] at hdi

/-! ### Signedness by width, but for some widths -/

/-- Among the nodes of other widths than `E` no two have the same width and different signedness; values of a width in `E` are read only by
operators with that single operand, whose results have such a width, too; there are no offsets. -/
structure SignsBut (V : Nat → NodeV) (nodes : List Nat) (E : Nat → Prop) : Prop where
  signs : ∀ m ∈ nodes, ∀ n ∈ nodes, ¬ E (width (V m).ty) → width (V m).ty = width (V n).ty → (V m).ty.isSigned = (V n).ty.isSigned
  calm : ∀ n ∈ nodes, ∀ s ∈ (V n).srcs, E (width (V s).ty) → (V n).srcs = [s] ∧ E (width (V n).ty)
  noOff : ∀ n ∈ nodes, (V n).op ≠ .OFFSET

section
variable {V : Nat → NodeV} {order : List Nat} {lat : Nat → Int} {E : Nat → Prop}

theorem block_noOffset (hto : TopoOrder V order) (hc : ∀ n ∈ order, Complete V n) (hof : ∀ n ∈ order, (V n).op ≠ .OFFSET) {i : Nat}
    (hi : i < (progOf (block V order)).size) (s : Nat) (k : Int) : (progOf (block V order)).defn i ≠ .offset s k := by
  intro hd
  rw [progOf_size] at hi
  obtain ⟨hn, he⟩ := value_is_node hto.nodup hi
  generalize order[i] = n at hn he
  subst he
  rw [progOf_defn _ hn (hc n hn)] at hd
  unfold defOf at hd
  cases ho : (V n).op
  case OFFSET => exact hof n hn ho
  case IN => rw [ho] at hd; by_cases hk : (V n).kind = .stream <;> simp [hk] at hd
  case MUX => rw [ho] at hd; cases he : (V n).srcs <;> simp [he] at hd
  all_goals rw [ho] at hd; simp at hd

/-- Without offsets and outputs that are read, operands are the nodes they read. -/
theorem nearest_self {P : Prog} (hP : WF P) (hof : ∀ i < P.size, ∀ s k, P.defn i ≠ .offset s k) (hro : ∀ o, ¬ ReadOutput P o) {i v : Nat}
    (hi : i < P.size) (hv : v ∈ (P.defn i).refs) : (nearestOf P v).1 = v ∧ (nearestOf P v).2 = 0 := by
  have hlt := hP.refs i hi v hv
  have hr := nearestOf_reads hP (v := v) (by omega)
  generalize (nearestOf P v).1 = x at hr
  generalize (nearestOf P v).2 = k at hr
  cases hr with
  | here => exact ⟨rfl, rfl⟩
  | out h _ => exact absurd ⟨by rw [h]; rfl, i, hi, hv⟩ (hro v)
  | off h _ => exact absurd h (hof v (by omega) _ _)

/-- The values of the widths in `E`. -/
def exemptVals (V : Nat → NodeV) (order : List Nat) (E : Nat → Prop) (v : Nat) : Prop := E (width (opTy (opsOf (block V order)) v))

theorem single_refs {n s : Nat} (hc : Complete V n) (hs : (V n).srcs = [s]) {idx : Nat → Nat} {c : Chan} {P : Prog} {i : Nat}
    (hd : P.defn i = defOf V idx n) (hcc : c ∈ inChans P i) : ∀ c' ∈ inChans P i, c' = c := by
  intro c' hc'
  unfold inChans at hcc hc'
  rw [hd] at hcc hc'
  have conn : (defOf V idx n = .node [idx s]) ∨ (∀ args, defOf V idx n ≠ .node args) := by
    by_cases h : ∃ args, defOf V idx n = .node args
    · obtain ⟨args, h⟩ := h
      rcases defOf_node h with ⟨-, ⟨c, alts, e, rfl⟩ | ⟨e, -⟩⟩ | ⟨-, rfl⟩
      · rw [hs] at e; cases e; exact .inl h
      · rw [hs] at e; cases e
      · rw [hs] at h; exact .inl h
    · exact .inr fun args e => h ⟨args, e⟩
  rcases conn with e | e
  · rw [e] at hcc hc'
    simp at hcc hc'
    rw [hcc, hc']
  · cases hq : defOf V idx n with
    | node args => exact absurd hq (e args)
    | output o =>
      rw [hq] at hcc hc'
      cases o with
      | none => simp at hcc
      | some r => simp at hcc hc'; rw [hcc, hc']
    | _ => rw [hq] at hcc; simp at hcc

theorem block_calm (K : Compilable V order lat) (hE : SignsBut V order E) (hr : OutputsNotRead V order) :
    Calm (progOf (block V order)) (exemptVals V order E) := by
  have hP := block_wf K.topo K.compl K.offs
  intro c hc hs
  obtain ⟨h1, h2⟩ := mem_channels.1 hc
  have h1' := h1
  rw [progOf_size] at h1'
  obtain ⟨hn, he⟩ := value_is_node K.topo.nodup h1'
  generalize order[c.tgt] = n at hn he
  have hd := progOf_defn V hn (K.compl n hn)
  rw [he] at hd
  have hop : ∃ r ∈ (defOf V order.idxOf n).refs, c.src = (nearestOf (progOf (block V order)) r).1 ∧ c.off = (nearestOf (progOf (block V order)) r).2 := by
    unfold inChans at h2
    rw [hd] at h2
    cases hq : defOf V order.idxOf n with
    | node args =>
      rw [hq] at h2
      obtain ⟨j, hj, e⟩ := List.mem_mapIdx.mp h2
      exact ⟨args[j], List.getElem_mem hj, by rw [← e], by rw [← e]⟩
    | output o =>
      rw [hq] at h2
      cases o with
      | none => simp at h2
      | some r =>
        simp only [List.mem_singleton] at h2
        exact ⟨r, by simp [Def.refs], by rw [h2], by rw [h2]⟩
    | _ => rw [hq] at h2; simp at h2
  obtain ⟨r, hr1, e1, e2⟩ := hop
  obtain ⟨s1, s2⟩ := nearest_self hP (fun i hi => block_noOffset K.topo K.compl hE.noOff hi) (fun o => block_readOutputs K.topo K.compl hr) h1 (by rw [hd]; exact hr1)
  rw [s1] at e1
  obtain ⟨m, hm, rfl⟩ := defOf_refs (K.compl n hn) hr1
  have hmo := (srcs_in_order K.topo hn hm).1
  unfold exemptVals at hs
  rw [e1, opTy_at V hmo (K.compl m hmo)] at hs
  obtain ⟨q1, q2⟩ := hE.calm n hn m hm hs
  refine ⟨?_, by rw [e2, s2], fun c' hc' ht => ?_⟩
  · unfold exemptVals
    rw [← he, opTy_at V hn (K.compl n hn)]; exact q2
  · obtain ⟨-, h4⟩ := mem_channels.1 hc'
    rw [ht] at h4
    exact single_refs (K.compl n hn) q1 hd h2 c' h4

/-- No buffers of mixed signedness, if the readers of exempt values start as soon as they can. -/
theorem noMixed_but (K : Compilable V order lat) (hE : SignsBut V order E) (hr : OutputsNotRead V order) {T : Nat → Int}
    (hT : ∀ c ∈ channels (progOf (block V order)), exemptVals V order E c.src → T c.tgt = T c.src + lat c.src + c.off)
    {bs : List (Chan × Int)} (hbs : ∀ p ∈ bs, p ∈ buffersFor (progOf (block V order)) lat T) {X : Prog}
    (h : applySchedule (progOf (block V order)) bs = .ok X) : NoMixedBuffers (opTy (opsOf (block V order))) X := by
  have hP := block_wf K.topo K.compl K.offs
  have hsm := block_small K.topo K.compl K.few
  have hch : ∀ p ∈ bs, p.1 ∈ channels (progOf (block V order)) := fun p hp => (buffersFor_mem.1 (hbs p hp)).1
  obtain ⟨hi, -⟩ := applySchedule_tyInv (base := opTy (opsOf (block V order))) hP (progOf_beyond _) (offsets_keep_types K) hch h
  intro u v s s' n hu hv du dv hw
  obtain ⟨a, ha, ea⟩ := valTy_node K hi u hu
  obtain ⟨b, hb, eb⟩ := valTy_node K hi v hv
  have hq := buffers_from (base := opTy (opsOf (block V order))) hP (progOf_beyond _) (offsets_keep_types K) hsm
    (fun i hi' r hr' => by
      rw [(nearest_self hP (fun i hi => block_noOffset K.topo K.compl hE.noOff hi) (fun o => block_readOutputs K.topo K.compl hr) hi' hr').1])
    (Q := fun ty => ¬ E (width ty)) (bs := bs)
    (fun p hp => by
      obtain ⟨b1, b2, b3, b4⟩ := buffersFor_mem.1 (hbs p hp)
      refine ⟨b1, b4, fun hex => b3 ?_⟩
      have := hT p.1 b1 hex
      omega) h hu du
  rw [ea, eb] at hw ⊢
  rw [ea] at hq
  exact hE.signs a ha b hb hq hw

end

end Verif.Flow
