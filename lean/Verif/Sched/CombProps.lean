import Verif.Sched.CombModel
import Verif.Sched.RunExists
import Verif.Sched.AsapProps
import Mathlib.Data.List.Basic
import Mathlib.Data.Rat.Floor
import Mathlib.Tactic.Linarith
import Mathlib.Tactic.NormNum
/-
Properties C33 and C34: the combinational pipelining pass.
-/
namespace Verif.Sched
open Verif.Dfcxx (Fault)

/-! ### Specification -/

/-- Kernels the pass can process: no stream offsets, and no output is read inside the kernel. -/
structure CombKernel (P : Prog) : Prop where
  noOffset : ∀ i < P.size, ∀ s k, P.defn i ≠ .offset s k
  noReadBack : ∀ i < P.size, ∀ r ∈ (P.defn i).refs, ∀ s, P.defn r ≠ .output (some s)

/-- A chain of `n` dependencies ends at operation `v`. -/
inductive Chain (P : Prog) : Nat → Nat → Prop
  | start (v : Nat) : Chain P v 0
  | step {x v n k} (h : Chain P x n) (hd : Dep P x v k) : Chain P v (n + 1)

/-- `v` is at the end of a longest dependency chain of the kernel. -/
def Deepest (P : Prog) (v : Nat) : Prop :=
  ∃ n, Chain P v n ∧ ∀ u m, u < P.size → Chain P u m → m ≤ n

/-! ### Channels -/

theorem combSrc_ok {P : Prog} {v x : Nat} (h : combSrc P v = .ok x) : x = v ∧ nearestOf P v = (v, 0) := by
  unfold combSrc at h
  unfold nearestOf
  cases hd : P.defn v with
  | output s => cases s <;> rw [hd] at h <;> simp at h; subst h; simp [nearest, hd]
  | _ => rw [hd] at h; simp at h; try (subst h; simp [nearest, hd])

theorem combArgs_ok {P : Prog} {i : Nat} : ∀ (args : List Nat) (j : Nat) (cs : List Chan), combArgs P i j args = .ok cs →
    cs = args.mapIdx (fun k v => (⟨(nearestOf P v).1, i, wrap8 (k + j), (nearestOf P v).2⟩ : Chan)) ∧
    ∀ c ∈ cs, c.off = 0 := by
  intro args
  induction args with
  | nil => intro j cs h; simp [combArgs] at h; subst h; simp
  | cons v vs ih =>
    intro j cs h
    simp only [combArgs] at h
    split at h
    · cases h
    · rename_i x hx
      split at h
      · cases h
      · rename_i ds hds
        cases h
        obtain ⟨e1, e2⟩ := ih (j + 1) ds hds
        obtain ⟨e3, e4⟩ := combSrc_ok hx
        rw [List.mapIdx_cons]
        refine ⟨?_, ?_⟩
        · rw [e1, e4, e3]
          simp only [Nat.zero_add]
          congr 1
          apply List.ext_getElem (by simp)
          intro k h1 h2
          simp only [List.getElem_mapIdx]
          rw [show k + (j + 1) = k + 1 + j by omega]
        · intro c hc
          rcases List.mem_cons.1 hc with rfl | hc
          · rfl
          · exact e2 c hc

theorem combInChans_ok {P : Prog} {i : Nat} {cs : List Chan} (h : combInChans P i = .ok cs) :
    cs = inChans P i ∧ ∀ c ∈ cs, c.off = 0 := by
  unfold combInChans at h
  unfold inChans
  split at h
  · rename_i s hd
    split at h
    · cases h
    · rename_i x hx
      cases h
      obtain ⟨e3, e4⟩ := combSrc_ok hx
      subst e3
      rw [hd]; simp only [e4]
      exact ⟨trivial, by simp⟩
  · rename_i args hd
    rw [hd]
    obtain ⟨e1, e2⟩ := combArgs_ok args 0 cs h
    exact ⟨by simpa using e1, e2⟩
  · rename_i h1 h2
    cases h
    refine ⟨?_, by simp⟩
    split
    · rename_i s hd; exact absurd hd (h1 s)
    · rename_i args hd; exact absurd hd (h2 args)
    · rfl

theorem combChannels_ok {P : Prog} : ∀ (l : List Nat) (cs : List Chan), combChannels P l = .ok cs →
    cs = l.flatMap (inChans P) ∧ ∀ c ∈ cs, c.off = 0 := by
  intro l
  induction l with
  | nil => intro cs h; simp [combChannels] at h; subst h; simp
  | cons i is ih =>
    intro cs h
    simp only [combChannels] at h
    split at h
    · cases h
    · rename_i cs1 h1
      split at h
      · cases h
      · rename_i ds h2
        cases h
        obtain ⟨e1, e2⟩ := ih ds h2
        obtain ⟨e3, e4⟩ := combInChans_ok h1
        refine ⟨by rw [List.flatMap_cons, e3, e1], ?_⟩
        intro c hc
        rcases List.mem_append.1 hc with hc | hc
        · exact e4 c hc
        · exact e2 c hc

/-- The pass can build its graph for every kernel without offsets and read-back outputs. -/
theorem combChannels_total {P : Prog} (hP : WF P) (hK : CombKernel P) :
    combChannels P (List.range P.size) = .ok (channels P) ∧ ∀ c ∈ channels P, c.off = 0 := by
  have hsrc : ∀ i < P.size, ∀ r ∈ (P.defn i).refs, combSrc P r = .ok r := by
    intro i hi r hr
    have hlt := hP.refs i hi r hr
    have h1 := hK.noOffset r (by omega)
    have h2 := hK.noReadBack i hi r hr
    have h3 := hP.fresh r (by omega)
    unfold combSrc
    cases hd : P.defn r with
    | output s => cases s with
      | none => rfl
      | some s => exact absurd hd (h2 s)
    | offset s k => exact absurd hd (h1 s k)
    | latency s k => exact absurd hd (h3.1 s k)
    | erased => exact absurd hd h3.2
    | _ => rfl
  have hargs : ∀ i (args : List Nat) j, (∀ r ∈ args, combSrc P r = .ok r) → ∃ cs, combArgs P i j args = .ok cs := by
    intro i args
    induction args with
    | nil => intro j _; exact ⟨[], rfl⟩
    | cons v vs ih =>
      intro j h
      obtain ⟨cs, hcs⟩ := ih (j + 1) (fun r hr => h r (by simp [hr]))
      refine ⟨⟨v, i, wrap8 j, 0⟩ :: cs, ?_⟩
      simp only [combArgs, h v (by simp), hcs]
  have hin : ∀ i < P.size, ∃ cs, combInChans P i = .ok cs := by
    intro i hi
    have h := hsrc i hi
    unfold combInChans
    cases hd : P.defn i with
    | output s => cases s with
      | none => exact ⟨_, rfl⟩
      | some s => rw [hd] at h; simp only [h s (by simp [Def.refs])]; exact ⟨_, rfl⟩
    | node args => rw [hd] at h; exact hargs i args 0 h
    | _ => exact ⟨_, rfl⟩
  have hall : ∀ l : List Nat, (∀ i ∈ l, i < P.size) → ∃ cs, combChannels P l = .ok cs := by
    intro l
    induction l with
    | nil => intro _; exact ⟨[], rfl⟩
    | cons i is ih =>
      intro h
      obtain ⟨cs, hcs⟩ := hin i (h i (by simp))
      obtain ⟨ds, hds⟩ := ih (fun j hj => h j (by simp [hj]))
      exact ⟨cs ++ ds, by simp only [combChannels, hcs, hds]⟩
  obtain ⟨cs, hcs⟩ := hall (List.range P.size) (fun i hi => List.mem_range.1 hi)
  obtain ⟨e1, e2⟩ := combChannels_ok _ _ hcs
  have : cs = channels P := e1
  subst this
  exact ⟨hcs, e2⟩

/-! ### Layers -/

theorem layerFold_asap (P : Prog) (m : Nat) (cs : List Chan) (hcs : ∀ c ∈ cs, c.src = m ∧ m < c.tgt ∧ c.off = 0) :
    ∀ (f : Nat → Nat) (st : AsapState), (∀ n, st.time n = f n) →
    ∀ n, (cs.foldl (asapChan P (fun _ => 1)) st).time n = ((cs.foldl (layerChan (f m + 1)) f) n : Nat) := by
  suffices ∀ (l : Nat) (f : Nat → Nat) (st : AsapState), (∀ n, st.time n = f n) → f m + 1 = l →
      ∀ n, (cs.foldl (asapChan P (fun _ => 1)) st).time n = ((cs.foldl (layerChan l) f) n : Nat) from
    fun f st h => this _ f st h rfl
  intro l
  induction cs with
  | nil => intro f st h _ n; exact h n
  | cons c cs ih =>
    intro f st h hl n
    obtain ⟨h1, h2, h3⟩ := hcs c (by simp)
    rw [List.foldl_cons, List.foldl_cons]
    apply ih (fun d hd => hcs d (by simp [hd]))
    · intro n
      simp only [asapChan, layerChan, h1, h3, h]
      by_cases hlt : f c.tgt < l
      · rw [if_pos (by omega), if_pos hlt]
        by_cases hn : n = c.tgt
        · simp only [hn, if_true]; omega
        · simp only [hn, if_false]
      · rw [if_neg (by omega), if_neg hlt]; exact h n
    · unfold layerChan
      split
      · simp only; rw [if_neg (by omega)]; exact hl
      · exact hl

theorem layerFold_mono (l : Nat) (cs : List Chan) : ∀ f n, f n ≤ (cs.foldl (layerChan l) f) n := by
  induction cs with
  | nil => intro f n; exact Nat.le_refl _
  | cons c cs ih =>
    intro f n
    refine Nat.le_trans ?_ (ih _ n)
    unfold layerChan
    split
    · rename_i hlt
      by_cases hn : n = c.tgt
      · subst hn; simp only [if_true]; omega
      · simp only [hn, if_false]; omega
    · exact Nat.le_refl _

theorem layerFold_ge (l : Nat) (cs : List Chan) : ∀ f, ∀ c ∈ cs, l ≤ (cs.foldl (layerChan l) f) c.tgt := by
  induction cs with
  | nil => intro f c hc; simp at hc
  | cons d cs ih =>
    intro f c hc
    rw [List.foldl_cons]
    rcases List.mem_cons.1 hc with rfl | hc
    · refine Nat.le_trans ?_ (layerFold_mono l cs _ _)
      unfold layerChan
      split
      · simp
      · omega
    · exact ih _ c hc

theorem layerFold_le (l b : Nat) (cs : List Chan) (hb : cs ≠ [] → l ≤ b) :
    ∀ f, (∀ n, f n ≤ b) → ∀ n, (cs.foldl (layerChan l) f) n ≤ b := by
  induction cs with
  | nil => intro f h n; exact h n
  | cons d cs ih =>
    intro f h n
    rw [List.foldl_cons]
    have hl := hb (by simp)
    apply ih (fun _ => hl)
    intro n
    unfold layerChan
    split
    · simp only; split
      · exact hl
      · exact h n
    · exact h n

structure LayerInv (P : Prog) (m : Nat) (st : LayerState) : Prop where
  le : ∀ v, st.layer v ≤ st.maxLayer
  at_ : st.maxLayer = 0 ∨ ∃ v < P.size, st.layer v = st.maxLayer
  asap : ∀ v, ((List.range m).foldl (asapNode P (fun _ => 1)) ⟨fun _ => 0, 0⟩).time v = st.layer v

theorem divideIntoLayers_inv {P : Prog} (hP : WF P) (hoff : ∀ c ∈ channels P, c.off = 0) (m : Nat) :
    LayerInv P m ((List.range m).foldl (layerNode (channels P)) ⟨fun _ => 0, 0⟩) := by
  induction m with
  | zero => exact ⟨by simp, by simp, by simp⟩
  | succ m ih =>
    rw [List.range_succ, List.foldl_append, List.foldl_cons, List.foldl_nil]
    generalize (List.range m).foldl (layerNode (channels P)) ⟨fun _ => 0, 0⟩ = st at ih
    have hcs : ∀ c ∈ (channels P).filter (fun c => c.src = m), c.src = m ∧ m < c.tgt ∧ c.off = 0 := by
      intro c hc
      rw [List.mem_filter] at hc
      have hs : c.src = m := by simpa using hc.2
      exact ⟨hs, by have := chan_lt hP hc.1; omega, hoff c hc.1⟩
    have hle : ∀ v, (layerNode (channels P) st m).layer v ≤ (layerNode (channels P) st m).maxLayer := by
      intro v
      simp only [layerNode]
      apply layerFold_le
      · intro hne
        split
        · exact Nat.le_refl _
        · rename_i h; rw [not_and_or] at h; rcases h with h | h
          · exact absurd hne h
          · omega
      · intro n
        have := ih.le n
        split <;> omega
    refine ⟨hle, ?_, ?_⟩
    · by_cases hn : (channels P).filter (fun c => c.src = m) ≠ [] ∧ st.maxLayer < st.layer m + 1
      · right
        obtain ⟨c, hc⟩ := List.exists_mem_of_ne_nil _ hn.1
        have h1 := layerFold_ge (st.layer m + 1) _ st.layer c hc
        refine ⟨c.tgt, (chan_lt hP (List.mem_filter.1 hc).1).2, ?_⟩
        have h2 := hle c.tgt
        simp only [layerNode, if_pos hn] at h2 ⊢
        omega
      · rcases ih.at_ with h0 | ⟨v, hv, he⟩
        · left; simp only [layerNode, if_neg hn]; exact h0
        · right
          refine ⟨v, hv, ?_⟩
          have h1 := layerFold_mono (st.layer m + 1) ((channels P).filter (fun c => c.src = m)) st.layer v
          have h2 := hle v
          simp only [layerNode, if_neg hn] at h2 ⊢
          omega
    · intro v
      rw [List.range_succ, List.foldl_append, List.foldl_cons, List.foldl_nil]
      exact layerFold_asap P m _ hcs st.layer _ ih.asap v

theorem layers_spec {P : Prog} (hP : WF P) (hoff : ∀ c ∈ channels P, c.off = 0) :
    let st := divideIntoLayers P (channels P)
    (∀ v, st.layer v ≤ st.maxLayer) ∧ (st.maxLayer = 0 ∨ ∃ v < P.size, st.layer v = st.maxLayer) ∧
    (∀ c ∈ channels P, st.layer c.src + 1 ≤ st.layer c.tgt) ∧
    (∀ v, st.layer v = 0 ∨ ∃ c ∈ channels P, c.tgt = v ∧ st.layer v = st.layer c.src + 1) := by
  intro st
  have h := divideIntoLayers_inv hP hoff P.size
  have ha := asap_inv hP (fun _ => 1)
  have he : ∀ v, (asap P (fun _ => 1)).time v = st.layer v := h.asap
  refine ⟨h.le, h.at_, ?_, ?_⟩
  · intro c hc
    have := ha.dep c hc (by have := chan_lt hP hc; omega)
    rw [he, he, hoff c hc] at this; omega
  · intro v
    rcases ha.tight v with h0 | ⟨c, hc, _, ht, h1⟩
    · left; rw [he] at h0; omega
    · right; refine ⟨c, hc, ht, ?_⟩
      rw [he, he, hoff c hc] at h1; omega

theorem chain_layer {P : Prog} (hP : WF P) (hoff : ∀ c ∈ channels P, c.off = 0) {v n : Nat} (hv : v < P.size)
    (h : Chain P v n) : n ≤ (divideIntoLayers P (channels P)).layer v := by
  obtain ⟨_, _, h3, _⟩ := layers_spec hP hoff
  induction h with
  | start v => omega
  | step h hd ih =>
    obtain ⟨c, hc, rfl, rfl, _⟩ := dep_chan hP hv hd
    have := h3 c hc
    have := ih (by have := chan_lt hP hc; omega)
    omega

theorem layer_chain {P : Prog} (hP : WF P) (hoff : ∀ c ∈ channels P, c.off = 0) (v : Nat) :
    Chain P v ((divideIntoLayers P (channels P)).layer v) := by
  obtain ⟨_, _, _, h4⟩ := layers_spec hP hoff
  induction v using Nat.strongRecOn with
  | _ v ih =>
    rcases h4 v with h0 | ⟨c, hc, ht, he⟩
    · rw [h0]; exact .start v
    · rw [he]
      subst ht
      exact .step (ih c.src (chan_lt hP hc).1) (chan_dep hP hc).2

theorem deepest_iff {P : Prog} (hP : WF P) (hoff : ∀ c ∈ channels P, c.off = 0) {v : Nat} (hv : v < P.size) :
    Deepest P v ↔ (divideIntoLayers P (channels P)).layer v = (divideIntoLayers P (channels P)).maxLayer := by
  obtain ⟨h1, h2, _, _⟩ := layers_spec hP hoff
  constructor
  · rintro ⟨n, hn, hmax⟩
    have h3 := chain_layer hP hoff hv hn
    have h4 := h1 v
    rcases h2 with h0 | ⟨u, hu, he⟩
    · omega
    · have := hmax u _ hu (layer_chain hP hoff u)
      omega
  · intro he
    refine ⟨_, layer_chain hP hoff v, ?_⟩
    intro u m hu hm
    have := chain_layer hP hoff hu hm
    have := h1 u
    omega

/-! ### Cascades -/

theorem cascadeLoop_spec (A : FloatArith) (stages : Nat) : ∀ (rest : List A.F) (i left : Nat)
    (latSum latAvg currSum : A.F) (curr : Nat) (cs : List Nat), 1 ≤ left → curr + left = stages →
    cascadeLoop A stages i left latSum latAvg currSum curr rest = .ok cs →
    cs.length = rest.length ∧ (∀ x ∈ cs, curr ≤ x ∧ x ≤ stages - 1) ∧ cs.Pairwise (· ≤ ·) ∧
    (i = 0 → curr = 0 → ∀ x, cs.head? = some x → x = 0) := by
  intro rest
  induction rest with
  | nil => intro i left latSum latAvg currSum curr cs _ _ h; simp [cascadeLoop] at h; subst h; simp
  | cons w ws ih =>
    intro i left latSum latAvg currSum curr cs hl hc h
    simp only [cascadeLoop] at h
    split at h
    · rename_i hlt
      split at h
      · split at h
        · cases h
        · rename_i ds hds
          cases h
          obtain ⟨a1, a2, a3, _⟩ := ih _ _ _ _ _ _ _ hl hc hds
          refine ⟨by simp [a1], ?_, ?_, ?_⟩
          · intro x hx
            rcases List.mem_cons.1 hx with rfl | hx
            · omega
            · exact a2 x hx
          · exact List.pairwise_cons.2 ⟨fun x hx => (a2 x hx).1, a3⟩
          · intro _ h0 x hx; simp at hx; omega
      · split at h
        · split at h
          · cases h
          · rename_i hi
            split at h
            · cases h
            · rename_i ds hds
              cases h
              obtain ⟨a1, a2, a3, _⟩ := ih _ _ _ _ _ _ _ (by omega) (by omega) hds
              refine ⟨by simp [a1], ?_, ?_, ?_⟩
              · intro x hx
                rcases List.mem_cons.1 hx with rfl | hx
                · omega
                · have := a2 x hx; omega
              · exact List.pairwise_cons.2 ⟨fun x hx => (a2 x hx).1, a3⟩
              · intro h0; exact absurd h0 hi
        · split at h
          · cases h
          · rename_i ds hds
            cases h
            obtain ⟨a1, a2, a3, _⟩ := ih _ _ _ _ _ _ _ (by omega) (by omega) hds
            refine ⟨by simp [a1], ?_, ?_, ?_⟩
            · intro x hx
              rcases List.mem_cons.1 hx with rfl | hx
              · omega
              · have := a2 x hx; omega
            · exact List.pairwise_cons.2 ⟨fun x hx => by have := a2 x hx; omega, a3⟩
            · intro _ h0 x hx; simp at hx; omega
    · rename_i hlt
      cases h
      refine ⟨by simp, ?_, ?_, ?_⟩
      · intro x hx; have := List.eq_of_mem_replicate hx; omega
      · exact List.pairwise_replicate.2 (.inr (Nat.le_refl _))
      · intro _ h0 x hx; simp [List.replicate_succ] at hx; omega

/-- **C33, load balancing.**  Whatever the floating-point comparisons answer, if the division into cascades does not
stop, it is monotone along the layers, uses cascades `0 .. stages-1`, puts the last layer into the last one and -- when
there is more than one layer -- the first into the first. -/
theorem cascades_monotone (A : FloatArith) (stages : Nat) (weights : List Nat) (hw : weights ≠ []) (cs : List Nat)
    (h : divideIntoCascades A stages weights = .ok cs) :
    cs.length = weights.length ∧ (∀ x ∈ cs, x ≤ stages - 1) ∧
    (∀ i j, i ≤ j → j < cs.length → cs.getD i 0 ≤ cs.getD j 0) ∧
    cs.getD (weights.length - 1) 0 = stages - 1 ∧ (1 < weights.length → cs.getD 0 0 = 0) := by
  unfold divideIntoCascades at h
  split at h
  · cases h
  · rename_i hs
    simp only at h
    split at h
    · cases h
    · rename_i ds hds
      cases h
      obtain ⟨a1, a2, a3, a4⟩ := cascadeLoop_spec A stages _ _ _ _ _ _ _ _ (by omega) (by omega) hds
      have hlen : 0 < weights.length := List.length_pos_iff.2 hw
      rw [List.length_map] at a1
      have hget : ∀ i, i < ds.length → (ds.set (weights.length - 1) (stages - 1)).getD i 0 =
          if i = weights.length - 1 then stages - 1 else ds.getD i 0 := by
        intro i hi
        simp only [List.getD_eq_getElem?_getD, List.getElem?_set]
        by_cases he : weights.length - 1 = i
        · rw [if_pos he, if_pos he.symm, if_pos (by omega)]; rfl
        · rw [if_neg he, if_neg (fun h => he h.symm)]
      refine ⟨by simpa using a1, ?_, ?_, ?_, ?_⟩
      · intro x hx
        rcases List.mem_or_eq_of_mem_set hx with hx | hx
        · exact (a2 x hx).2
        · omega
      · intro i j hij hj
        rw [List.length_set] at hj
        rw [hget i (by omega), hget j hj]
        have hmem : ∀ k, k < ds.length → ds.getD k 0 ≤ stages - 1 := by
          intro k hk
          simp only [List.getD_eq_getElem?_getD, List.getElem?_eq_getElem hk, Option.getD_some]
          exact (a2 _ (List.getElem_mem hk)).2
        by_cases h1 : i = weights.length - 1
        · rw [if_pos h1, if_pos (by omega)]
        · rw [if_neg h1]
          by_cases h2 : j = weights.length - 1
          · rw [if_pos h2]; exact hmem i (by omega)
          · rw [if_neg h2]
            rcases Nat.lt_or_ge i j with hlt | hge
            · simp only [List.getD_eq_getElem?_getD, List.getElem?_eq_getElem (show i < ds.length by omega),
                List.getElem?_eq_getElem hj, Option.getD_some]
              exact List.pairwise_iff_getElem.1 a3 i j (by omega) hj hlt
            · have : i = j := by omega
              subst this; exact Nat.le_refl _
      · rw [hget _ (by omega), if_pos rfl]
      · intro h1
        rw [hget 0 (by omega), if_neg (by omega)]
        cases ds with
        | nil => simp at a1; omega
        | cons d ds => exact a4 rfl rfl d rfl

/-- What single-precision arithmetic must satisfy for the pass not to stop: sums and quotients of non-negative numbers
are non-negative, and subtracting a non-negative number twice from zero gives nothing positive. -/
structure FloatArith.Sane (A : FloatArith) : Prop where
  exists_nonneg : ∃ nn : A.F → Prop, (∀ n, nn (A.ofNat n)) ∧ (∀ x y, nn x → nn y → nn (A.add x y)) ∧
    (∀ x n, nn x → 0 < n → nn (A.div x (A.ofNat n))) ∧
    (∀ a, nn a → A.gt (A.add (A.sub (A.sub (A.add (A.ofNat 0) (A.ofNat 0)) a) a) (A.ofNat 0)) A.eps = false)

theorem cascadeLoop_total (A : FloatArith) (stages : Nat) : ∀ (rest : List A.F) (i left : Nat)
    (latSum latAvg currSum : A.F) (curr : Nat), i ≠ 0 →
    ∃ cs, cascadeLoop A stages i left latSum latAvg currSum curr rest = .ok cs := by
  intro rest
  induction rest with
  | nil => intros; exact ⟨_, rfl⟩
  | cons w ws ih =>
    intro i left latSum latAvg currSum curr hi
    simp only [cascadeLoop]
    simp only [if_neg hi]
    split
    · split
      · obtain ⟨cs, h⟩ := ih (i + 1) left latSum latAvg (A.add currSum w) curr (by omega)
        rw [h]; exact ⟨_, rfl⟩
      · split
        · obtain ⟨cs, h⟩ := ih (i + 1) (left - 1) (A.sub latSum currSum)
            (A.div (A.sub latSum currSum) (A.ofNat (left - 1))) w (curr + 1) (by omega)
          rw [h]; exact ⟨_, rfl⟩
        · obtain ⟨cs, h⟩ := ih (i + 1) (left - 1) (A.sub latSum (A.add currSum w))
            (A.div (A.sub latSum (A.add currSum w)) (A.ofNat (left - 1))) (A.ofNat 0) (curr + 1) (by omega)
          rw [h]; exact ⟨_, rfl⟩
    · exact ⟨_, rfl⟩

theorem divideIntoCascades_total (A : FloatArith) (hA : A.Sane) (stages : Nat) (hs : 0 < stages) (ws : List Nat) :
    ∃ cs, divideIntoCascades A stages (0 :: ws) = .ok cs := by
  obtain ⟨nn, n1, n2, n3, n4⟩ := hA.exists_nonneg
  have hsum : ∀ (l : List Nat) x, nn x → nn ((l.map A.ofNat).foldl A.add x) := by
    intro l
    induction l with
    | nil => intro x h; exact h
    | cons a l ih => intro x h; exact ih _ (n2 _ _ h (n1 a))
  have havg := n3 _ stages (hsum (0 :: ws) (A.ofNat 0) (n1 0)) hs
  unfold divideIntoCascades
  rw [if_neg (by omega)]
  simp only
  generalize ((0 :: ws).map A.ofNat).foldl A.add (A.ofNat 0) = latSum at havg
  generalize A.div latSum (A.ofNat stages) = avg at havg
  suffices ∃ cs, cascadeLoop A stages 0 stages latSum avg (A.ofNat 0) 0 ((0 :: ws).map A.ofNat) = .ok cs by
    obtain ⟨cs, h⟩ := this
    rw [h]; exact ⟨_, rfl⟩
  simp only [List.map_cons, cascadeLoop]
  split
  · split
    · obtain ⟨cs, h⟩ := cascadeLoop_total A stages (ws.map A.ofNat) 1 stages latSum avg (A.add (A.ofNat 0) (A.ofNat 0)) 0 (by omega)
      rw [h]; exact ⟨_, rfl⟩
    · rw [n4 avg havg]
      simp only [Bool.false_eq_true, if_false]
      obtain ⟨cs, h⟩ := cascadeLoop_total A stages (ws.map A.ofNat) 1 (stages - 1)
        (A.sub latSum (A.add (A.ofNat 0) (A.ofNat 0)))
        (A.div (A.sub latSum (A.add (A.ofNat 0) (A.ofNat 0))) (A.ofNat (stages - 1))) (A.ofNat 0) (0 + 1) (by omega)
      rw [h]; exact ⟨_, rfl⟩
  · exact ⟨_, rfl⟩

/-! ### C33 -/

/-- Delay the pass gives to an operation. -/
def combDelay (P : Prog) (casc : List Nat) (n : Nat) : Int :=
  let st := divideIntoLayers P (channels P)
  if st.maxLayer = 0 then 0
  else (casc.getD (st.layer n) 0 : Int) + (if st.layer n = st.maxLayer then 1 else 0)

theorem layerWeights_length (P : Prog) (st : LayerState) : (layerWeights P st).length = st.maxLayer + 1 := by
  simp [layerWeights]

theorem combDelay_schedule {P : Prog} (hP : WF P) (hoff : ∀ c ∈ channels P, c.off = 0) (A : FloatArith) (stages : Nat)
    (casc : List Nat)
    (h : divideIntoCascades A stages (layerWeights P (divideIntoLayers P (channels P))) = .ok casc) :
    Schedule P (fun _ => 0) (combDelay P casc) := by
  obtain ⟨h1, h2, h3, h4⟩ := layers_spec hP hoff
  have hne : layerWeights P (divideIntoLayers P (channels P)) ≠ [] := by
    rw [← List.length_pos_iff, layerWeights_length]; omega
  obtain ⟨c1, c2, c3, c4, c5⟩ := cascades_monotone A stages _ hne casc h
  rw [layerWeights_length] at c1 c4 c5
  refine ⟨?_, ?_, ?_⟩
  · intro n
    unfold combDelay
    simp only
    split
    · exact Int.le_refl _
    · split <;> omega
  · intro n hn hd
    unfold combDelay
    simp only
    split
    · rfl
    · rename_i hm
      have hl : (divideIntoLayers P (channels P)).layer n = 0 := by
        rcases h4 n with h0 | ⟨c, hc, ht, _⟩
        · exact h0
        · obtain ⟨_, hi⟩ := mem_channels.1 hc
          rw [ht] at hi; simp [inChans, hd] at hi
      rw [hl, if_neg (fun h => hm h.symm), c5 (by omega)]; rfl
  · intro x n k hn hdep
    obtain ⟨c, hc, rfl, rfl, rfl⟩ := dep_chan hP hn hdep
    have h5 := h3 c hc
    have h6 := h1 c.tgt
    have h7 := hoff c hc
    unfold combDelay
    simp only
    split
    · omega
    · have := c3 _ _ (show (divideIntoLayers P (channels P)).layer c.src ≤ (divideIntoLayers P (channels P)).layer c.tgt by omega)
        (by omega)
      rw [if_neg (show (divideIntoLayers P (channels P)).layer c.src ≠ (divideIntoLayers P (channels P)).maxLayer by omega)]
      split <;> omega

theorem calculateFIFOs_eq {P : Prog} (hP : WF P) (hoff : ∀ c ∈ channels P, c.off = 0) (A : FloatArith) (stages : Nat)
    (hst : stages < 2^31) (casc : List Nat)
    (h : divideIntoCascades A stages (layerWeights P (divideIntoLayers P (channels P))) = .ok casc) :
    calculateFIFOs P (channels P) (divideIntoLayers P (channels P)).layer casc =
    buffersFor P (fun _ => 0) (combDelay P casc) := by
  obtain ⟨h1, h2, h3, h4⟩ := layers_spec hP hoff
  have hne : layerWeights P (divideIntoLayers P (channels P)) ≠ [] := by
    rw [← List.length_pos_iff, layerWeights_length]; omega
  obtain ⟨c1, c2, c3, c4, c5⟩ := cascades_monotone A stages _ hne casc h
  rw [layerWeights_length] at c1 c4 c5
  have hb : ∀ k, casc.getD k 0 ≤ stages - 1 := by
    intro k
    by_cases hk : k < casc.length
    · simp only [List.getD_eq_getElem?_getD, List.getElem?_eq_getElem hk, Option.getD_some]
      exact c2 _ (List.getElem_mem hk)
    · simp only [List.getD_eq_getElem?_getD, List.getElem?_eq_none (Nat.le_of_not_lt hk), Option.getD_none]; omega
  unfold calculateFIFOs buffersFor
  apply List.filterMap_congr
  intro c hc
  have h5 := h3 c hc
  have h6 := h1 c.tgt
  have h7 := hoff c hc
  have b1 := hb ((divideIntoLayers P (channels P)).layer c.src)
  have b2 := hb ((divideIntoLayers P (channels P)).layer c.tgt)
  simp only [combDelay, c1, h7]
  rw [wrap32_range (k := (casc.getD ((divideIntoLayers P (channels P)).layer c.tgt) 0 : Int) - (casc.getD ((divideIntoLayers P (channels P)).layer c.src) 0 : Int))
    (by omega) (by omega), wrap32_range (by omega) (by omega)]
  rw [if_neg (show (divideIntoLayers P (channels P)).maxLayer ≠ 0 by omega),
    if_neg (show (divideIntoLayers P (channels P)).maxLayer ≠ 0 by omega),
    if_neg (show (divideIntoLayers P (channels P)).layer c.src ≠ (divideIntoLayers P (channels P)).maxLayer by omega)]
  simp only [Nat.add_sub_cancel]
  have : ∀ d d' : Int, d = d' → (if d ≠ 0 ∧ (P.defn c.src).isConstantInput = false then some (c, d) else none) =
      (if d' ≠ 0 ∧ (P.defn c.src).isConstantInput = false then some (c, d') else none) := by
    intro d d' hd; rw [hd]
  apply this
  split <;> omega

theorem insertBuffer_noOffset {P P' : Prog} {c : Chan} {b : Int} (h : insertBuffer P c b = .ok P')
    (hP : ∀ i < P.size, ∀ s k, P.defn i ≠ .offset s k) : ∀ i < P'.size, ∀ s k, P'.defn i ≠ .offset s k := by
  unfold insertBuffer at h
  split at h
  · cases h
  · split at h
    · split at h
      · split at h
        · cases h
          intro i hi s k
          simp only [Prog.set] at hi ⊢
          split
          · simp
          · split
            · simp
            · exact hP i (by omega) s k
        · cases h
      · cases h
    · split at h
      · cases h
      · split at h
        · cases h
          intro i hi s k
          simp only [Prog.set] at hi ⊢
          split
          · simp
          · split
            · simp
            · exact hP i (by omega) s k
        · cases h

theorem insertBuffers_noOffset : ∀ (bs : List (Chan × Int)) {P P' : Prog}, insertBuffers P bs = .ok P' →
    (∀ i < P.size, ∀ s k, P.defn i ≠ .offset s k) → ∀ i < P'.size, ∀ s k, P'.defn i ≠ .offset s k := by
  intro bs
  induction bs with
  | nil => intro P P' h hP; simp [insertBuffers] at h; subst h; exact hP
  | cons p bs ih =>
    intro P P' h hP
    simp only [insertBuffers] at h
    split at h
    · cases h
    · rename_i P1 h1
      exact ih h (insertBuffer_noOffset h1 hP)

theorem eraseOffsets_id {P : Prog} (h : ∀ i < P.size, ∀ s k, P.defn i ≠ .offset s k) (n : Nat) (hn : n ≤ P.size) :
    eraseOffsets n P = P := by
  unfold eraseOffsets
  have : ∀ l : List Nat, (∀ p ∈ l, p < P.size) → l.foldl eraseOne P = P := by
    intro l
    induction l with
    | nil => intro _; rfl
    | cons p l ih =>
      intro hl
      rw [List.foldl_cons]
      have : eraseOne P p = P := by
        unfold eraseOne
        split
        · rename_i s k hd; exact absurd hd (h p (hl p (by simp)) s k)
        · rfl
      rw [this]; exact ih (fun q hq => hl q (by simp [hq]))
  exact this _ (fun p hp => by have := List.mem_range.1 hp; omega)

/-- The pass in terms of the cascades it computed. -/
theorem combPipeline_eq {P : Prog} (hP : WF P) (hK : CombKernel P) (A : FloatArith) (stages : Nat) (hs : 0 < stages)
    (hst : stages < 2^31) (order : List (Chan × Int) → List (Chan × Int)) :
    (∃ f, divideIntoCascades A stages (layerWeights P (divideIntoLayers P (channels P))) = .error f ∧
      combPipeline A stages order P = .error f) ∨
    ∃ casc, divideIntoCascades A stages (layerWeights P (divideIntoLayers P (channels P))) = .ok casc ∧
      combPipeline A stages order P = insertBuffers P (order (buffersFor P (fun _ => 0) (combDelay P casc))) := by
  obtain ⟨e1, hoff⟩ := combChannels_total hP hK
  unfold combPipeline combBuffers
  rw [if_neg (by omega), e1]
  simp only
  cases hc : divideIntoCascades A stages (layerWeights P (divideIntoLayers P (channels P))) with
  | error f => exact .inl ⟨f, rfl, rfl⟩
  | ok casc =>
    right
    refine ⟨casc, rfl, ?_⟩
    simp only
    rw [calculateFIFOs_eq hP hoff A stages hst casc hc]

/-- **C33.**  For every kernel without offsets and read-back outputs, every number `stages` of pipeline stages, every
behaviour of the floating-point load balancing and every order in which buffers are inserted: if the pass finishes, there is one delay
per operation -- 0 for stream inputs, at most `stages`, exactly `stages` for every connected output at the end of a longest
dependency chain, less for operations that are not -- such that in every run of the resulting netlist each operation
shows element `t` of its stream at cycle `delay + t`: all paths that meet anywhere carry the same number of registers.
The netlist has a run for every interpretation. -/
theorem comb_pipeline_balanced {P : Prog} (hP : WF P) (hsm : Small P) (hK : CombKernel P) (A : FloatArith) (stages : Nat)
    (hs : 0 < stages) (hst : stages < 2^31) (order : List (Chan × Int) → List (Chan × Int))
    (horder : ∀ l, (order l).Perm l) (P' : Prog) (h : combPipeline A stages order P = .ok P') :
    P.size ≤ P'.size ∧ ∃ delay : Nat → Int,
      (∀ v < P.size, P.defn v = .stream → delay v = 0) ∧
      (∀ v, 0 ≤ delay v ∧ delay v ≤ stages) ∧
      (∀ v < P.size, ∀ s, P.defn v = .output (some s) → (delay v = stages ↔ Deepest P v)) ∧
      (∀ (α : Type) (I : Interp α), ∃ σ, HwRun P' I (fun _ => 0) σ) ∧
      ∀ (α : Type) (I : Interp α) (σ : Nat → Int → α), HwRun P' I (fun _ => 0) σ →
        ∀ v < P.size, (P.defn v).isNode → ∀ t, 0 ≤ t → ∀ a, Sem P I v t a → σ v (delay v + t) = a := by
  obtain ⟨e1, hoff⟩ := combChannels_total hP hK
  rcases combPipeline_eq hP hK A stages hs hst order with ⟨f, _, he⟩ | ⟨casc, hc, he⟩
  · rw [he] at h; cases h
  · rw [he] at h
    have hsched := combDelay_schedule hP hoff A stages casc hc
    have hread : ReadOutputsTight P (fun _ => 0) (combDelay P casc) := by
      intro o ho
      obtain ⟨h1, n, hn, h2⟩ := ho
      intro x k hdep
      obtain ⟨_, s, hs, _⟩ := hdep
      cases hd : P.defn o with
      | output src => cases src with
        | none => rw [hd] at hs; simp [Def.refs] at hs
        | some u => exact absurd hd (hK.noReadBack n hn o h2 u)
      | _ => rw [hd] at h1; simp [Def.isOutput] at h1
    obtain ⟨P2, hap, _, hsz, hcorr⟩ := schedule_pipeline_correct hP hsm (lat := fun _ => 0)
      ⟨fun _ => Int.le_refl _, fun _ _ => rfl⟩ hsched hread _ (horder (buffersFor P (fun _ => 0) (combDelay P casc)))
    have hap0 := hap
    simp only [applySchedule, h] at hap
    have hno := insertBuffers_noOffset _ h hK.noOffset
    have hsz' : P.size ≤ P'.size := by
      refine (insertBuffers_ranked _ hP.ranked ?_ h).2
      intro p hp
      exact (chan_lt hP (buffersFor_mem.1 ((horder _).mem_iff.1 hp)).1).2
    rw [eraseOffsets_id hno _ hsz'] at hap
    cases hap
    obtain ⟨l1, l2, l3, l4⟩ := layers_spec hP hoff
    have hne : layerWeights P (divideIntoLayers P (channels P)) ≠ [] := by
      rw [← List.length_pos_iff, layerWeights_length]; omega
    obtain ⟨c1, c2, c3, c4, c5⟩ := cascades_monotone A stages _ hne casc hc
    rw [layerWeights_length] at c1 c4 c5
    have hb : ∀ k, casc.getD k 0 ≤ stages - 1 := by
      intro k
      by_cases hk : k < casc.length
      · simp only [List.getD_eq_getElem?_getD, List.getElem?_eq_getElem hk, Option.getD_some]
        exact c2 _ (List.getElem_mem hk)
      · simp only [List.getD_eq_getElem?_getD, List.getElem?_eq_none (Nat.le_of_not_lt hk), Option.getD_none]; omega
    refine ⟨hsz', combDelay P casc, hsched.input, ?_, ?_, ?_, ?_⟩
    · intro v
      refine ⟨hsched.nonneg v, ?_⟩
      have := hb ((divideIntoLayers P (channels P)).layer v)
      unfold combDelay
      simp only
      split
      · omega
      · split <;> omega
    · intro v hv s hd
      rw [deepest_iff hP hoff hv]
      -- a connected output is the target of a channel
      have hch : ∃ c ∈ channels P, c.tgt = v := by
        refine ⟨⟨(nearestOf P s).1, v, -0 - 1, (nearestOf P s).2⟩, mem_channels.2 ⟨hv, ?_⟩, rfl⟩
        simp only [inChans, hd, List.mem_singleton]
      obtain ⟨c, hcm, rfl⟩ := hch
      have h5 := l3 c hcm
      have h6 := l1 c.tgt
      have h7 := hb ((divideIntoLayers P (channels P)).layer c.tgt)
      unfold combDelay
      simp only
      rw [if_neg (by omega)]
      constructor
      · intro he
        by_cases hl : (divideIntoLayers P (channels P)).layer c.tgt = (divideIntoLayers P (channels P)).maxLayer
        · exact hl
        · rw [if_neg hl] at he; omega
      · intro hl
        rw [if_pos hl, hl]
        simp only [Nat.add_sub_cancel] at c4
        rw [c4]; omega
    · intro α I
      exact scheduled_netlist_runs hP (fun p hp => (buffersFor_mem.1 ((horder _).mem_iff.1 hp)).1) hap0 I _
    · intro α I σ hrun v hv hn t ht a ha
      have := hcorr α I σ hrun v hv hn t ht a ha
      simpa using this

/-- **C33, the pass finishes.**  With sane arithmetic and every operation having at least one operand, the pass finishes
on every such kernel: neither the load-balancing assertion nor the buffer-length assertion can fire. -/
theorem comb_pipeline_finishes {P : Prog} (hP : WF P) (hsm : Small P) (hK : CombKernel P)
    (hargs : ∀ i < P.size, P.defn i ≠ .node []) (A : FloatArith) (hA : A.Sane) (stages : Nat) (hst : stages < 2^31)
    (order : List (Chan × Int) → List (Chan × Int)) (horder : ∀ l, (order l).Perm l) :
    ∃ P', combPipeline A stages order P = .ok P' := by
  by_cases hs : stages = 0
  · exact ⟨P, by simp [combPipeline, hs]⟩
  obtain ⟨e1, hoff⟩ := combChannels_total hP hK
  obtain ⟨l1, l2, l3, l4⟩ := layers_spec hP hoff
  have hw : ∃ ws, layerWeights P (divideIntoLayers P (channels P)) = 0 :: ws := by
    unfold layerWeights
    rw [List.range_succ_eq_map, List.map_cons]
    refine ⟨_, congrArg (· :: _) ?_⟩
    have : ∀ l : List Nat, (∀ n ∈ l, (P.defn n).weight = 0) →
        l.foldl (fun m n => max m (P.defn n).weight) 0 = 0 := by
      intro l
      induction l with
      | nil => intro _; rfl
      | cons a l ih =>
        intro hl
        rw [List.foldl_cons, hl a (by simp)]
        exact ih (fun n hn => hl n (by simp [hn]))
    apply this
    intro n hn
    rw [List.mem_filter, List.mem_range] at hn
    obtain ⟨hn1, hn2⟩ := hn
    simp only [decide_eq_true_eq] at hn2
    cases hd : P.defn n with
    | node args =>
      exfalso
      cases args with
      | nil => exact hargs n hn1 hd
      | cons v vs =>
        have hcm : (⟨(nearestOf P v).1, n, wrap8 0, (nearestOf P v).2⟩ : Chan) ∈ channels P := by
          refine mem_channels.2 ⟨hn1, ?_⟩
          simp only [inChans, hd]
          rw [List.mapIdx_cons]
          simp
        have := l3 _ hcm
        simp only at this
        omega
    | _ => rfl
  obtain ⟨ws, hws⟩ := hw
  obtain ⟨casc0, hcasc0⟩ := divideIntoCascades_total A hA stages (by omega) ws
  rw [← hws] at hcasc0
  rcases combPipeline_eq hP hK A stages (by omega) hst order with ⟨f, hf, _⟩ | ⟨casc, hc, he⟩
  · rw [hf] at hcasc0; cases hcasc0
  · have hsched := combDelay_schedule hP hoff A stages casc hc
    obtain ⟨P1, h1, _⟩ := insertBuffers_spec hsm (order (buffersFor P (fun _ => 0) (combDelay P casc))) [] P (Buffered.refl P)
      (by
        intro p hp
        obtain ⟨h1, h2, h3, h6⟩ := buffersFor_mem.1 ((horder _).mem_iff.1 hp)
        obtain ⟨h4, h5⟩ := chan_dep hP h1
        have := hsched.dep _ _ _ h4 h5
        exact ⟨h1, h6, by omega⟩)
      (by
        rw [List.nil_append]
        exact ((horder _).map _).nodup_iff.2 (buffersFor_keys_nodup hsm _ _))
    exact ⟨P1, by rw [he, h1]⟩

/-! ### C34 -/

/-- Exact arithmetic. -/
def exactArith : FloatArith where
  F := ℚ
  ofNat n := n
  add := (· + ·)
  sub := (· - ·)
  div := (· / ·)
  gt x y := decide (x > y)
  eps := 1 / 1000000

theorem exactArith_sane : exactArith.Sane := by
  refine ⟨fun x => (0 : ℚ) ≤ x, ?_, ?_, ?_, ?_⟩
  · intro n; exact Nat.cast_nonneg n
  · intro x y hx hy; exact add_nonneg hx hy
  · intro x n hx hn; exact div_nonneg hx (Nat.cast_nonneg n)
  · intro a ha
    have key : ∀ a : ℚ, 0 ≤ a → decide (((0 : Nat) : ℚ) + ((0 : Nat) : ℚ) - a - a + ((0 : Nat) : ℚ) > 1 / 1000000) = false := by
      intro a ha; rw [decide_eq_false_iff_not]; push_cast; linarith
    exact key a ha

/-- `y = x; z = f(x)`: two outputs at different depths. -/
def twoOuts : Prog where
  size := 4
  defn := fun | 0 => .stream | 1 => .output (some 0) | 2 => .node [0] | 3 => .output (some 2) | _ => .erased

theorem twoOuts_wf : WF twoOuts := by
  refine ⟨?_, ?_, ?_⟩
  · intro i hi
    have : i < 4 := hi
    interval_cases i <;> simp [twoOuts, Def.refs]
  · intro i hi
    have : i < 4 := hi
    interval_cases i <;> simp [twoOuts]
  · intro i hi s k h
    have : i < 4 := hi
    interval_cases i <;> simp [twoOuts] at h

theorem twoOuts_small : Small twoOuts := by
  refine .of_length fun i hi args h => ?_
  have : i < 4 := hi
  interval_cases i <;> simp [twoOuts] at h <;> subst h <;> simp

theorem twoOuts_comb : CombKernel twoOuts := by
  refine ⟨?_, ?_⟩
  · intro i hi s k
    have : i < 4 := hi
    interval_cases i <;> simp [twoOuts]
  · intro i hi r hr s
    have : i < 4 := hi
    interval_cases i <;> simp [twoOuts, Def.refs] at hr <;> subst hr <;> simp [twoOuts]

/-- Non-vacuity of C33: the hypotheses hold for `twoOuts`, and with two stages the pass finishes with two buffers. -/
example : WF twoOuts ∧ Small twoOuts ∧ CombKernel twoOuts ∧ exactArith.Sane ∧
    (∀ i < twoOuts.size, twoOuts.defn i ≠ .node []) ∧
    ∃ P', combPipeline exactArith 2 id twoOuts = .ok P' := by
  have hargs : ∀ i < twoOuts.size, twoOuts.defn i ≠ .node [] := by
    intro i hi
    have : i < 4 := hi
    interval_cases i <;> simp [twoOuts]
  exact ⟨twoOuts_wf, twoOuts_small, twoOuts_comb, exactArith_sane, hargs,
    comb_pipeline_finishes twoOuts_wf twoOuts_small twoOuts_comb hargs exactArith exactArith_sane 2 (by norm_num) id
      (fun l => List.Perm.refl l)⟩

/-- **C34 fails** (finding).  For every positive number of stages, the pass finishes on `twoOuts`, its second output is
delayed by `stages` cycles as requested, and its first by strictly fewer: the outputs are not aligned. -/
theorem comb_outputs_misaligned (A : FloatArith) (hA : A.Sane) (stages : Nat) (hs : 0 < stages) (hst : stages < 2^31) :
    ∃ P' d, combPipeline A stages id twoOuts = .ok P' ∧ 0 ≤ d ∧ d < (stages : Int) ∧
      ∀ (α : Type) (I : Interp α), (∃ σ, HwRun P' I (fun _ => 0) σ) ∧
        ∀ σ, HwRun P' I (fun _ => 0) σ → ∀ t, 0 ≤ t →
          σ 1 (d + t) = I.inp 0 t ∧ σ 3 (stages + t) = I.fn 2 [I.inp 0 t] := by
  have hargs : ∀ i < twoOuts.size, twoOuts.defn i ≠ .node [] := by
    intro i hi
    have : i < 4 := hi
    interval_cases i <;> simp [twoOuts]
  obtain ⟨P', hok⟩ := comb_pipeline_finishes twoOuts_wf twoOuts_small twoOuts_comb hargs A hA stages hst id
    (fun l => List.Perm.refl l)
  obtain ⟨_, delay, _, h2, h3, h4, h5⟩ := comb_pipeline_balanced twoOuts_wf twoOuts_small twoOuts_comb A stages hs hst id
    (fun l => List.Perm.refl l) P' hok
  have hoff := (combChannels_total twoOuts_wf twoOuts_comb).2
  have hd1 : delay 1 ≠ stages := by
    rw [ne_eq, h3 1 (by decide) 0 rfl, deepest_iff twoOuts_wf hoff (by decide)]
    decide
  have hd3 : delay 3 = stages := by
    rw [h3 3 (by decide) 2 rfl, deepest_iff twoOuts_wf hoff (by decide)]
    decide
  refine ⟨P', delay 1, hok, (h2 1).1, lt_of_le_of_ne (h2 1).2 hd1, ?_⟩
  intro α I
  refine ⟨h4 α I, ?_⟩
  intro σ hrun t ht
  have hin : Sem twoOuts I 0 t (I.inp 0 t) := .stream rfl ht
  refine ⟨h5 α I σ hrun 1 (by decide) rfl t ht _ (.output (s := 0) rfl hin), ?_⟩
  rw [← hd3]
  refine h5 α I σ hrun 3 (by decide) rfl t ht _ (.output (s := 2) rfl ?_)
  exact Sem.strict (v := 2) (args := [0]) (fun _ => I.inp 0 t) rfl ht (by intro s hs; simp at hs; subst hs; exact hin)

/-- C34, the part that holds: if every connected output ends a longest dependency chain of the kernel, all outputs are
aligned at `stages`.  (By `comb_pipeline_balanced` this condition is also necessary.) -/
theorem comb_outputs_aligned_partial {P : Prog} (hP : WF P) (hsm : Small P) (hK : CombKernel P) (A : FloatArith) (stages : Nat)
    (hs : 0 < stages) (hst : stages < 2^31) (order : List (Chan × Int) → List (Chan × Int))
    (horder : ∀ l, (order l).Perm l) (P' : Prog) (h : combPipeline A stages order P = .ok P')
    (hdeep : ∀ v < P.size, ∀ s, P.defn v = .output (some s) → Deepest P v) :
    ∀ (α : Type) (I : Interp α) (σ : Nat → Int → α), HwRun P' I (fun _ => 0) σ →
      ∀ v < P.size, ∀ s, P.defn v = .output (some s) → ∀ t, 0 ≤ t → ∀ a, Sem P I v t a → σ v (stages + t) = a := by
  obtain ⟨_, delay, _, _, h3, _, h5⟩ := comb_pipeline_balanced hP hsm hK A stages hs hst order horder P' h
  intro α I σ hrun v hv s hd t ht a ha
  have := h5 α I σ hrun v hv (by rw [hd]; rfl) t ht a ha
  rw [(h3 v hv s hd).2 (hdeep v hv s hd)] at this
  exact this

/-! ### Kernels the pass cannot process -/

/-- A kernel that uses a stream offset of one operand, or that reads an output inside the kernel, makes the pass
dereference a null pointer or loop for ever, for every number of stages. -/
theorem comb_pipeline_rejects_offsets {P : Prog} (A : FloatArith) (stages : Nat) (hs : 0 < stages)
    (order : List (Chan × Int) → List (Chan × Int)) {i r : Nat} {args : List Nat} (hi : i < P.size)
    (hd : P.defn i = .node args) (hr : r ∈ args)
    (hbad : (∃ s k, P.defn r = .offset s k) ∨ ∃ s, P.defn r = .output (some s)) :
    combPipeline A stages order P = .error .ub := by
  have hbadc : combSrc P r = .error .ub := by
    unfold combSrc
    rcases hbad with ⟨s, k, h⟩ | ⟨s, h⟩ <;> rw [h]
  have herr : ∀ v, combSrc P v = .error .ub ∨ ∃ x, combSrc P v = .ok x := by
    intro v; unfold combSrc; split <;> simp
  have hargs : ∀ (l : List Nat) i j, combArgs P i j l = .error .ub ∨ ∃ cs, combArgs P i j l = .ok cs := by
    intro l
    induction l with
    | nil => intro i j; exact .inr ⟨[], rfl⟩
    | cons v vs ih =>
      intro i j
      simp only [combArgs]
      rcases herr v with h | ⟨x, h⟩
      · rw [h]; exact .inl rfl
      · rw [h]; simp only
        rcases ih i (j + 1) with h | ⟨cs, h⟩
        · rw [h]; exact .inl rfl
        · rw [h]; exact .inr ⟨_, rfl⟩
  have hargsbad : ∀ (l : List Nat) i j, r ∈ l → combArgs P i j l = .error .ub := by
    intro l
    induction l with
    | nil => intro i j h; simp at h
    | cons v vs ih =>
      intro i j h
      simp only [combArgs]
      rcases herr v with h' | ⟨x, h'⟩
      · rw [h']
      · rw [h']; simp only
        rcases List.mem_cons.1 h with rfl | h
        · rw [hbadc] at h'; cases h'
        · rw [ih i (j + 1) h]
  have hin : ∀ i, combInChans P i = .error .ub ∨ ∃ cs, combInChans P i = .ok cs := by
    intro i
    unfold combInChans
    split
    · rename_i s _
      rcases herr s with h | ⟨x, h⟩
      · rw [h]; exact .inl rfl
      · rw [h]; exact .inr ⟨_, rfl⟩
    · exact hargs _ _ _
    · exact .inr ⟨_, rfl⟩
  have hall : ∀ l : List Nat, i ∈ l → combChannels P l = .error .ub := by
    intro l
    induction l with
    | nil => intro h; simp at h
    | cons a l ih =>
      intro h
      simp only [combChannels]
      rcases hin a with h' | ⟨cs, h'⟩
      · rw [h']
      · rw [h']; simp only
        rcases List.mem_cons.1 h with rfl | h
        · exfalso
          unfold combInChans at h'
          rw [hd] at h'
          simp only [hargsbad args i 0 hr] at h'
          cases h'
        · rw [ih h]
  unfold combPipeline combBuffers
  rw [if_neg (by omega), hall _ (List.mem_range.2 hi)]

end Verif.Sched
