import Verif.Flat.Model
import Verif.Kernels.Chain
import Verif.Dfcxx.WorldNodes
/-
How many nodes the kernels of the standard library and of /repo/examples have.
-/
namespace Verif.Kernels
open Verif.Dfcxx Verif.Flow Verif.Flat

theorem addOperands_next : ∀ (l : List Nat) {w w' : World} {k tgt i : Nat}, w.addOperands k tgt i l = .ok w' → w'.next = w.next
  | [], _, _, _, _, _, h => by cases h; rfl
  | a :: l, w, w', k, tgt, i, h => by
    unfold World.addOperands at h
    cases h1 : w.addChannel k a tgt i false with
    | error e => rw [h1] at h; cases h
    | ok w1 =>
      rw [h1] at h
      obtain ⟨e, -⟩ := addChannel_live h1
      subst e
      exact (addOperands_next l (w := w.link a tgt i false) h).trans rfl

theorem bindOne_next {w w' : World} {K S : Nat} {b : Nat × String} {h : Nat} (hb : w.bindOne K S b = .ok (w', h)) : w'.next = w.next := by
  unfold World.bindOne at hb
  split at hb
  · cases hb
  · split at hb
    · cases hb
    · rename_i g _ n _
      simp only at hb
      split at hb
      · cases h1 : (w.resetName S b.2 n).rebindInput K S b.1 n with
        | error e => rw [h1] at hb; cases hb
        | ok w1 =>
          rw [h1] at hb
          cases hb
          unfold World.rebindInput at h1
          repeat' split at h1
          all_goals first | (cases h1; done) | (cases h1; rfl)
      · unfold World.rebindOutput at hb
        repeat' split at hb
        all_goals first | (cases hb; done) | skip
        all_goals simp only at hb; repeat' split at hb
        all_goals first | (cases hb; done) | (cases hb; rfl)

theorem bindAll_next : ∀ (bs : List (Nat × String)) {w w' : World} {K S : Nat} {hs : List Nat}, w.bindAll K S bs = .ok (w', hs) → w'.next = w.next
  | [], _, _, _, _, _, h => by cases h; rfl
  | b :: bs, w, w', K, S, hs, h => by
    unfold World.bindAll at h
    cases h1 : w.bindOne K S b with
    | error e => rw [h1] at h; cases h
    | ok r =>
      obtain ⟨w1, x⟩ := r
      rw [h1] at h
      cases h2 : w1.bindAll K S bs with
      | error e =>
        simp only [bind, Except.bind, h2] at h
        cases h
      | ok r2 =>
        obtain ⟨w2, xs⟩ := r2
        simp only [bind, Except.bind, h2] at h
        cases h
        exact (bindAll_next bs h2).trans (bindOne_next h1)

/-- What a call may add. -/
def Cmd.size : Cmd → Nat
  | .connect _ _ => 0
  | .beginInst => 0
  | .endInst _ => 0
  | _ => 1

theorem exec_size {F : FloatOps} {w w' : World} {cmd : Cmd} {rs : List Nat} (h : w.exec F cmd = .ok (w', rs)) : w'.next ≤ w.next + Cmd.size cmd := by
  cases exec_shape h with
  | new op ty sc name hop e hc => subst e; rcases hc with ⟨rfl, -⟩ | ⟨rfl, -⟩ | ⟨rfl, -⟩ <;> exact Nat.le_refl _
  | const ty v n hh hsi _ _ =>
    have : Cmd.size cmd = 1 := by cases cmd <;> first | rfl | (cases hsi)
    obtain ⟨hk, g, -, (⟨rfl, -⟩ | ⟨-, -, rfl⟩)⟩ := createOrUseConst_ok hh
    · omega
    · show w.next + 1 ≤ _
      omega
  | op k op data ty l n hop hcr hh hl =>
    have : Cmd.size cmd = 1 := by cases cmd <;> first | rfl | (cases hcr)
    unfold World.newOp at hh
    split at hh
    · cases hh
    · cases h1 : (w.addNode k ⟨op, data, ty, .stream, "", k, [], []⟩).addOperands k w.next 0 l with
      | error e => simp only [bind, Except.bind, h1] at hh; cases hh
      | ok w1 =>
        simp only [bind, Except.bind, h1] at hh
        cases hh
        have := addOperands_next l h1
        have e : (w.addNode k ⟨op, data, ty, .stream, "", k, [], []⟩).next = w.next + 1 := rfl
        omega
  | same a e _ _ _ => subst e; exact Nat.le_add_right _ _
  | connect a b hh => obtain ⟨e, -⟩ := addChannel_live hh; subst e; exact Nat.le_refl _
  | begin e => subst e; exact Nat.le_refl _
  | inst bs S K rest hst w1 _ h1 h2 =>
    have e1 := bindAll_next bs h1
    have e2 := (transfer_same h2).1
    show w'.next ≤ w.next + 0
    omega

/-- Running `p` creates at most `k` nodes. -/
def Adds {α : Type} (p : Build α) (k : Nat) : Prop := ∀ w a w', p w = .ok (a, w') → w'.next ≤ w.next + k

theorem Adds.pure {α : Type} (a : α) : Adds (Pure.pure a : Build α) 0 := fun w b w' h => by cases h; exact Nat.le_refl _

theorem Adds.bind {α β : Type} {p : Build α} {f : α → Build β} {a b : Nat} (hp : Adds p a) (hf : ∀ x, Adds (f x) b) : Adds (p >>= f) (a + b) := by
  intro w y w' h
  cases h1 : p w with
  | error e =>
    have : (p >>= f) w = .error e := by simp [Bind.bind, StateT.bind, h1, Except.bind]
    rw [this] at h; cases h
  | ok r =>
    obtain ⟨x, w1⟩ := r
    have : (p >>= f) w = f x w1 := by simp [Bind.bind, StateT.bind, h1, Except.bind]
    rw [this] at h
    have := hp w x w1 h1
    have := hf x w1 y w' h
    omega

theorem Adds.call1 (F : FloatOps) (c : Cmd) : Adds (call1 F c) (Cmd.size c) := by
  intro w a w' h
  unfold Kernels.call1 at h
  split at h
  · rename_i h1; cases h; exact exec_size h1
  · cases h
  · cases h

theorem Adds.call (F : FloatOps) (c : Cmd) : Adds (call F c) (Cmd.size c) := by
  intro w a w' h
  unfold Kernels.call at h
  split at h
  · rename_i h1; cases h; exact exec_size h1
  · cases h

theorem Adds.mono {α : Type} {p : Build α} {a b : Nat} (h : Adds p a) (hab : a ≤ b) : Adds p b := fun w x w' e => Nat.le_trans (h w x w' e) (by omega)

theorem Adds.forEach {α β : Type} {f : α → Build β} {k : Nat} (h : ∀ a, Adds (f a) k) : ∀ l, Adds (forEach f l) (l.length * k)
  | [] => by rw [List.length_nil, Nat.zero_mul]; exact Adds.pure _
  | a :: l => by
    unfold Kernels.forEach
    refine ((h a).bind fun b => (Adds.forEach h l).bind fun bs => Adds.pure _).mono ?_
    rw [List.length_cons, Nat.succ_mul]
    omega

theorem Adds.foldB {σ α : Type} {f : σ → α → Build σ} {k : Nat} (h : ∀ s a, Adds (f s a) k) : ∀ l s, Adds (foldB f l s) (l.length * k)
  | [], s => by rw [List.length_nil, Nat.zero_mul]; exact Adds.pure _
  | a :: l, s => by
    unfold Kernels.foldB
    refine ((h s a).bind fun s' => Adds.foldB h l s').mono ?_
    rw [List.length_cons, Nat.succ_mul]
    omega

theorem Adds.inst {F : FloatOps} {p : Build Unit} {k : Nat} (h : Adds p k) (bs : List (Nat × String)) : Adds (inst F p bs) k := by
  unfold Kernels.inst
  refine ((Adds.call F _).bind fun _ => h.bind fun _ => Adds.call F _).mono ?_
  simp [Cmd.size]

theorem Adds.one (F : FloatOps) (c : Cmd) : Adds (Kernels.call1 F c) 1 := (Adds.call1 F c).mono (by cases c <;> simp [Cmd.size])

theorem Adds.connect (F : FloatOps) (a b : Nat) : Adds (Kernels.call F (.connect a b)) 0 := Adds.call F _

theorem Adds.error {α : Type} (f : Fault) : Adds (fun _ => .error f : Build α) 0 := fun _ _ _ h => by cases h

theorem Adds.bind1 {β : Type} {F : FloatOps} {c : Cmd} {f : Nat → Build β} {k : Nat} (h : ∀ x, Adds (f x) k) : Adds (Kernels.call1 F c >>= f) (k + 1) :=
  ((Adds.one F c).bind h).mono (by omega)

theorem Adds.bind0 {β : Type} {F : FloatOps} {a b : Nat} {f : List Nat → Build β} {k : Nat} (h : ∀ x, Adds (f x) k) :
    Adds (Kernels.call F (.connect a b) >>= f) k := ((Adds.connect F a b).bind h).mono (by omega)

theorem Adds.bindPure {α β : Type} {a : α} {f : α → Build β} {k : Nat} (h : ∀ x, Adds (f x) k) : Adds ((Pure.pure a : Build α) >>= f) k :=
  ((Adds.pure a).bind h).mono (by omega)

theorem Adds.step {α β : Type} {p : Build α} {f : α → Build β} {a k : Nat} (hp : Adds p a) (ha : a ≤ k) (h : ∀ x, Adds (f x) (k - a)) :
    Adds (p >>= f) k := (hp.bind h).mono (by omega)

theorem Adds.last (F : FloatOps) (c : Cmd) {k : Nat} : Adds (Kernels.call1 F c) (k + 1) := (Adds.one F c).mono (by omega)

/-- Counting straight-line code. -/
macro "count" : tactic => `(tactic| repeat (first
  | exact (Adds.pure _).mono (Nat.zero_le _)
  | exact Adds.last _ _
  | refine Adds.bind1 fun _ => ?_
  | refine Adds.bind0 fun _ => ?_
  | refine Adds.bindPure fun _ => ?_))

section
variable (F : FloatOps)

theorem cst_adds (k v : Nat) : Adds (cst F k v) 1 := Adds.one _ _

theorem galoisAdd_adds (a b c d : Nat) : Adds (galoisAdd F a b c d) 3 := by
  unfold galoisAdd
  count

theorem galoisIter_adds (a b : Nat) (s : Nat × Nat × Nat) : Adds (galoisIter F a b s) 8 := by
  unfold galoisIter
  refine (galoisAdd_adds F _ _ _ _).step (by decide) fun _ => ?_
  count

theorem galoisBody_adds (a b : Nat) : Adds (galoisBody F a b) 61 := by
  unfold galoisBody
  refine (cst_adds F _ _).step (by decide) fun _ => (cst_adds F _ _).step (by decide) fun _ =>
    (Adds.foldB (fun s _ => galoisIter_adds F _ _ s) _ _).step (by decide) fun _ => (galoisAdd_adds F _ _ _ _).mono (by decide)

theorem galois8Mul_adds : Adds (galois8Mul F) 64 := by
  unfold galois8Mul
  refine Adds.bind1 fun _ => Adds.bind1 fun _ => (galoisBody_adds F _ _).step (by decide) fun _ => ?_
  count

theorem muxConsts_adds (k sel : Nat) (t : List Nat) : Adds (muxConsts F k sel t) (t.length + 1) := by
  unfold muxConsts
  refine (Adds.forEach (cst_adds F _) _).step (by omega) fun _ => (Adds.one _ _).mono (by omega)

theorem kuznGalois_adds (c : Nat) : Adds (kuznGalois F c) 259 := by
  have hb : ∀ i, Adds (kuznBody F c i) 257 := by
    intro i
    unfold kuznBody
    split
    · exact (Adds.pure _).mono (by omega)
    · split
      · rename_i t ht
        have : t.length ≤ 256 := by
          unfold mulTable at ht
          split at ht <;> first | (cases ht; decide +kernel) | cases ht
        exact (muxConsts_adds F 8 i t).mono (by omega)
      · exact (Adds.error _).mono (by omega)
  unfold kuznGalois
  refine Adds.bind1 fun _ => Adds.bind1 fun _ => (hb _).step (by decide) fun _ => ?_
  count

theorem permut_adds (t v : Nat) : Adds (permut F t v) 17 := by
  unfold permut
  refine (Adds.forEach (cst_adds F _) _).step (by decide) fun _ => ?_
  split
  · exact (Adds.one _ _).mono (by decide)
  · exact (Adds.pure _).mono (by omega)

theorem round_adds (l r k : Nat) : Adds (round F l r k) 158 := by
  unfold round
  refine Adds.bind1 fun _ => Adds.bind1 fun _ => Adds.bind1 fun _ => (Adds.forEach (fun i => Adds.one F _) _).step (by decide) fun _ =>
    (permut_adds F _ _).step (by decide) fun _ => (Adds.foldB (k := 18) (fun s i => ?_) _ _).step (by decide) fun _ => ?_
  · exact (permut_adds F _ _).step (by decide) fun _ => (Adds.one _ _).mono (by decide)
  · count

theorem magmaBody_adds (inds : List Nat) (h : inds.length = 32) (b k : Nat) : Adds (magmaBody F inds b k) 5066 := by
  unfold magmaBody
  refine Adds.bind1 fun _ => Adds.bind1 fun _ => (Adds.forEach (fun i => Adds.one F _) _).step (by decide) fun _ =>
    (Adds.foldB (fun s i => round_adds F _ _ _) _ _).mono (by rw [h]; decide)

theorem magmaEncoder_adds : Adds (magmaEncoder F) 5070 := by
  unfold magmaEncoder
  refine Adds.bind1 fun _ => Adds.bind1 fun _ => (magmaBody_adds F _ rfl _ _).step (by decide) fun _ => ?_
  count

theorem magmaDecoder_adds : Adds (magmaDecoder F) 5070 := by
  unfold magmaDecoder
  refine Adds.bind1 fun _ => Adds.bind1 fun _ => (magmaBody_adds F _ rfl _ _).step (by decide) fun _ => ?_
  count

theorem tablePermut_adds (v : Nat) (inv : Bool) : Adds (tablePermut F v inv) 257 := by
  unfold tablePermut
  split <;> exact (muxConsts_adds F 8 v _).mono (by decide +kernel)

theorem sLayer_adds (twice : Bool) (v : Nat) (inv : Bool) : Adds (sLayer F twice v inv) 4402 := by
  unfold sLayer
  refine Adds.bind1 fun _ => (tablePermut_adds F _ _).step (by decide) fun _ => (Adds.foldB (k := 259) (fun s i => ?_) _ _).mono ?_
  · exact Adds.bind1 fun _ => (tablePermut_adds F _ _).step (by decide) fun _ => (Adds.one _ _).mono (by decide)
  · cases twice <;> decide

theorem mulOpt_adds (v i : Nat) : Adds (mulOpt F v i) 261 := by
  unfold mulOpt
  refine Adds.bind1 fun _ => Adds.bind1 fun _ => (Adds.inst (kuznGalois_adds F _) _).step (by decide) fun _ => ?_
  count

theorem lGalois_adds (mul : MulBy) (v : Nat) : Adds (lGalois F mul v) 4192 := by
  cases mul
  · show Adds (lGaloisOpt F v) 4192
    unfold lGaloisOpt mulOptFirst
    refine Adds.step (a := 261) ?_ (by decide) fun _ => (Adds.foldB (k := 262) (fun s i => ?_) _ _).mono (by decide)
    · refine Adds.bind1 fun _ => Adds.bind1 fun _ => (Adds.inst (kuznGalois_adds F _) _).step (by decide) fun _ => ?_
      count
    · exact (mulOpt_adds F _ _).step (by decide) fun _ => (Adds.one _ _).mono (by decide)
  · show Adds (lGaloisPlain F v) 4192
    unfold lGaloisPlain mulPlainFirst
    refine (Adds.forEach (cst_adds F _) _).step (by decide) fun _ => Adds.step (a := 66) ?_ (by decide) fun _ =>
      (Adds.foldB (k := 67) (fun s i => ?_) _ _).mono (by decide)
    · refine Adds.bind1 fun _ => Adds.bind1 fun _ => (Adds.inst (galois8Mul_adds F) _).step (by decide) fun _ => ?_
      count
    · refine Adds.step (a := 66) ?_ (by decide) fun _ => (Adds.one _ _).mono (by decide)
      unfold mulPlain
      refine Adds.bind1 fun _ => Adds.bind1 fun _ => (Adds.inst (galois8Mul_adds F) _).step (by decide) fun _ => ?_
      count
  · show Adds (lGaloisMethod F v) 4192
    have hm : ∀ cs i, Adds (mulMethod F cs v i) 62 := fun cs i => by
      unfold mulMethod
      exact Adds.bind1 fun _ => galoisBody_adds F _ _
    unfold lGaloisMethod
    exact (Adds.forEach (cst_adds F _) _).step (by decide) fun _ => (hm _ _).step (by decide) fun _ =>
      (Adds.foldB (k := 63) (fun s i => (hm _ _).step (by decide) fun _ => (Adds.one _ _).mono (by decide)) _ _).mono (by decide)

theorem rStep_adds (v : Variant) (x : Nat) (inv : Bool) : Adds (rStep F v x inv) 4196 := by
  unfold rStep
  split
  · exact Adds.bind1 fun _ => Adds.bind1 fun _ => Adds.bind1 fun _ => (lGalois_adds F _ _).step (by decide) fun _ => (Adds.one _ _).mono (by decide)
  · exact (lGalois_adds F _ _).step (by decide) fun _ => (Adds.one _ _).step (by decide) fun _ => (Adds.one _ _).mono (by decide)

theorem lLayer_adds (v : Variant) (x : Nat) (inv : Bool) : Adds (lLayer F v x inv) 67136 := by
  unfold lLayer
  exact (Adds.foldB (fun s _ => rStep_adds F v s inv) _ _).mono (by decide)

theorem xsl_adds (v : Variant) (k x : Nat) : Adds (xsl F v k x) 71539 := by
  unfold xsl
  exact Adds.bind1 fun _ => (sLayer_adds F _ _ _).step (by decide) fun _ => (lLayer_adds F _ _ _).mono (by decide)

theorem lsx_adds (v : Variant) (k x : Nat) : Adds (lsx F v k x) 71539 := by
  unfold lsx
  exact (lLayer_adds F _ _ _).step (by decide) fun _ => (sLayer_adds F _ _ _).step (by decide) fun _ => (Adds.one _ _).mono (by decide)

theorem genKeys_adds (v : Variant) (a b : Nat) : Adds (genKeys F v a b) 2289376 := by
  have h1 : Adds (getConsts F) 96 := by
    unfold getConsts
    refine (Adds.forEach (k := 3) (fun c => ?_) _).mono (by decide)
    exact (cst_adds F _ _).step (by decide) fun _ => (cst_adds F _ _).step (by decide) fun _ => (Adds.one _ _).mono (by decide)
  unfold genKeys
  refine h1.step (by decide) fun _ => (Adds.foldB (k := 572320) (fun s i => ?_) _ _).mono (by decide)
  refine (Adds.foldB (k := 71540) (fun c j => ?_) _ _).step (by decide) fun _ => (Adds.pure _).mono (by decide)
  unfold fStep
  exact (xsl_adds F _ _ _).step (by decide) fun _ => (Adds.one _ _).step (by decide) fun _ => (Adds.pure _).mono (by decide)

theorem kuznechikEncoder_adds (v : Variant) : Adds (kuznechikEncoder F v) 2933233 := by
  unfold kuznechikEncoder kuznechikEncBody
  refine Adds.bind1 fun _ => Adds.bind1 fun _ => Adds.step (a := 2933230) ?_ (by decide) fun _ => ?_
  · exact Adds.bind1 fun _ => Adds.bind1 fun _ => (genKeys_adds F _ _ _).step (by decide) fun _ =>
      (Adds.foldB (fun x i => xsl_adds F _ _ _) _ _).step (by decide) fun _ => (Adds.one _ _).mono (by decide)
  · count

theorem kuznechikDecoder_adds (v : Variant) : Adds (kuznechikDecoder F v) 2933233 := by
  unfold kuznechikDecoder kuznechikDecBody
  refine Adds.bind1 fun _ => Adds.bind1 fun _ => Adds.step (a := 2933230) ?_ (by decide) fun _ => ?_
  · exact Adds.bind1 fun _ => Adds.bind1 fun _ => (genKeys_adds F _ _ _).step (by decide) fun _ =>
      (Adds.one _ _).step (by decide) fun _ => (Adds.foldB (fun x i => lsx_adds F _ _ _) _ _).mono (by decide)
  · count

theorem addConst_adds : Adds (addConst F) 6 := by unfold addConst; count
theorem polynomial2_adds : Adds (polynomial2 F) 5 := by unfold polynomial2; count
theorem matrixMul2_adds : Adds (matrixMul2 F) 24 := by unfold matrixMul2; count
theorem scalar3_adds : Adds (scalar3 F) 12 := by unfold scalar3; count
theorem muxMul_adds : Adds (muxMul F) 8 := by unfold muxMul; count
theorem movingSum_adds : Adds (movingSum F) 6 := by unfold movingSum; count

theorem idctConsts_adds (t : DFType) : Adds (idctConsts F t) 12 := by unfold idctConsts; count

theorem shiftCast_adds (t : DFType) (op : OpType) (x y k : Nat) : Adds (shiftCast F t op x y k) 3 := by unfold shiftCast; count

theorem rowPass_adds (t : DFType) (K : IdctConsts) (v : Nat → Nat) : Adds (rowPass F t K v) 81 := by
  unfold rowPass
  repeat (first | refine (shiftCast_adds F _ _ _ _ _).step (by decide) fun _ => ?_ | refine Adds.bind1 fun _ => ?_)
  count

theorem rowLoop_adds (t : DFType) (K : IdctConsts) (l : List Nat) : Adds (rowLoop F t K l) 648 := by
  unfold rowLoop
  refine (Adds.foldB (k := 81) (fun s i => ?_) _ _).mono (by decide)
  exact (rowPass_adds F _ _ _).step (by decide) fun _ => (Adds.pure _).mono (by decide)

theorem rowIdct_adds : Adds (rowIdct F) 788 := by
  unfold rowIdct
  refine (idctConsts_adds F _).step (by decide) fun _ => (Adds.forEach (fun i => Adds.one F _) _).step (by decide) fun _ =>
    (rowLoop_adds F _ _ _).step (by decide) fun _ => (Adds.forEach (k := 1) (fun i => ?_) _).step (by decide) fun _ => (Adds.pure _).mono (by decide)
  count

theorem shiftClip_adds (t : DFType) (K : IdctConsts) (op : OpType) (x y : Nat) : Adds (shiftClip F t K op x y) 9 := by
  unfold shiftClip iclp
  refine (shiftCast_adds F _ _ _ _ _).step (by decide) fun _ => ?_
  count

theorem colPass_adds (t : DFType) (K : IdctConsts) (v : Nat → Nat) : Adds (colPass F t K v) 138 := by
  unfold colPass
  repeat (first | refine (shiftClip_adds F _ _ _ _ _).step (by decide) fun _ => ?_ | refine Adds.bind1 fun _ => ?_)
  count

theorem colLoop_adds (t : DFType) (K : IdctConsts) (l : List Nat) : Adds (colLoop F t K l) 1104 := by
  unfold colLoop
  refine (Adds.foldB (k := 138) (fun s i => ?_) _ _).mono (by decide)
  exact (colPass_adds F _ _ _).step (by decide) fun _ => (Adds.pure _).mono (by decide)

theorem idct_adds : Adds (idct F) 1958 := by
  unfold idct
  refine (idctConsts_adds F _).step (by decide) fun _ => Adds.step (Adds.one _ _) (by decide) fun _ =>
    (Adds.forEach (fun i => Adds.one F _) _).step (by decide) fun _ =>
    (rowLoop_adds F _ _ _).step (by decide) fun _ => (colLoop_adds F _ _ _).step (by decide) fun _ => Adds.step (Adds.one _ _) (by decide) fun _ =>
    (Adds.foldB (k := 2) (fun s i => ?_) _ _).step (by decide) fun _ => ?_
  · count
  · count

theorem polynomial2Inst_adds : Adds (polynomial2Inst F) 8 := by
  unfold polynomial2Inst
  refine Adds.bind1 fun _ => Adds.bind1 fun _ => (Adds.inst (polynomial2_adds F) _).step (by decide) fun _ => ?_
  count

theorem chain_adds {k : Nat} {a b : String} {c : Nat} : ∀ (stages : List Stage), (∀ st ∈ stages, Adds st.code c) →
    Adds (chain F k a b stages) (2 + stages.length * (c + 1)) := by
  intro stages h
  have hf : ∀ (l : List Stage), (∀ st ∈ l, Adds st.code c) → ∀ s, Adds (foldB (fun s st => do
      let t ← call1 F (.newVar false (uint k))
      let hs ← inst F st.code [(s, st.inp), (t, st.out)]
      pure (hs.getD 1 0)) l s) (l.length * (c + 1)) := by
    intro l
    induction l with
    | nil => intro _ s; exact (Adds.pure _).mono (Nat.zero_le _)
    | cons st l ih =>
      intro hl s
      unfold foldB
      rw [List.length_cons, Nat.succ_mul]
      refine Adds.step (a := c + 1) ?_ (by omega) fun _ => (ih (fun x hx => hl x (by simp [hx])) _).mono (by omega)
      exact Adds.bind1 fun _ => (Adds.inst (hl st (by simp)) _).step (Nat.le_refl _) fun _ => (Adds.pure _).mono (Nat.zero_le _)
  unfold chain
  refine Adds.step (Adds.one F _) (by omega) fun _ => (hf stages h _).step (by omega) fun _ => Adds.step (Adds.one F _) (by omega) fun _ => ?_
  count

end

/-- The number of nodes of a kernel. -/
theorem Adds.nodes {p : Build Unit} {k : Nat} (h : Adds p k) {w : World} {g : KGraph} (hi : Inv w) (hp : p World.init = .ok ((), w))
    (hf : Finished w g) : g.nodes.length ≤ k := by
  have hn := h _ _ _ hp
  have hg : g ∈ w.stack := by rw [hf.only]; simp
  have h1 := hi.st.nodes g hg
  have h2 : ∀ n ∈ g.nodes, n < w.next := fun n hn => (hi.st.own g hg n hn).1
  have h3 := (List.subperm_of_subset h1 (l₂ := List.range w.next) fun n hn => List.mem_range.mpr (h2 n hn)).length_le
  rw [List.length_range] at h3
  have : World.init.next = 0 := rfl
  omega

end Verif.Kernels
