import Verif.Sched.Spec
import Mathlib.Data.List.Nodup
import Mathlib.Tactic.Tauto
import Mathlib.Algebra.Order.Ring.Int
/- Helper lemmas for the scheduling properties. -/
namespace Verif.Sched
open Verif.Dfcxx (Fault)

theorem wrap8_small {j : Nat} (h : j < 128) : wrap8 j = j := by
  unfold wrap8
  rw [BitVec.toInt_eq_toNat_of_lt] <;> simp [BitVec.toNat_ofNat] <;> omega

theorem wrap32_range {k : Int} (h1 : -(2^31 : Int) ≤ k) (h2 : k < 2^31) : wrap32 k = k := by
  unfold wrap32
  rw [BitVec.toInt_ofInt]
  rw [Int.bmod_eq_of_le] <;> omega

/-! ### Dependencies -/

theorem Reads.functional {P : Prog} {v x k x' k'} (h : Reads P v x k) (h' : Reads P v x' k') : x = x' ∧ k = k' := by
  induction h generalizing x' k' with
  | here h hn =>
    cases h' with
    | here => exact ⟨rfl, rfl⟩
    | out h2 => exact absurd h2 (hn _)
    | off h2 => rw [h2] at h; simp [Def.isNode] at h
  | out h hr ih =>
    cases h' with
    | here _ hn => exact absurd h (hn _)
    | out h2 hr2 => rw [h] at h2; cases h2; exact ih hr2
    | off h2 => rw [h] at h2; cases h2
  | off h hr ih =>
    cases h' with
    | here h2 _ => rw [h] at h2; simp [Def.isNode] at h2
    | out h2 => rw [h] at h2; cases h2
    | off h2 hr2 => rw [h] at h2; cases h2; obtain ⟨rfl, rfl⟩ := ih hr2; exact ⟨rfl, rfl⟩

theorem Reads.target {P : Prog} {v x k} (h : Reads P v x k) :
    (P.defn x).isNode ∧ ∀ s, P.defn x ≠ .output (some s) := by
  induction h with
  | here h hn => exact ⟨h, hn⟩
  | out _ _ ih => exact ih
  | off _ _ ih => exact ih

theorem Reads.le {P : Prog} (hP : WF P) {v x k} (h : Reads P v x k) (hv : v < P.size) : x ≤ v := by
  induction h with
  | here => exact le_refl _
  | @out v s x k h _ ih =>
    have := hP.refs _ hv s (by rw [h]; simp [Def.refs])
    have := ih (by omega); omega
  | @off v s x j k h _ ih =>
    have := hP.refs _ hv s (by rw [h]; simp [Def.refs])
    have := ih (by omega); omega

theorem nearest_reads {P : Prog} (hP : WF P) : ∀ (fuel v : Nat) (acc : Int), v < fuel → v < P.size →
    ∃ x k, nearest P fuel v acc = (x, acc + k) ∧ Reads P v x k := by
  intro fuel
  induction fuel with
  | zero => intro v acc h; omega
  | succ fuel ih =>
    intro v acc h hv
    have hr := hP.refs v hv
    unfold nearest
    cases hd : P.defn v with
    | offset s k =>
      have hs : s < v := hr s (by rw [hd]; simp [Def.refs])
      obtain ⟨x, j, h1, h2⟩ := ih s (acc + wrap32 k) (by omega) (by omega)
      have hk := hP.range v hv s k hd
      refine ⟨x, k + j, ?_, .off hd h2⟩
      rw [wrap32_range hk.1 hk.2] at h1
      simp only [wrap32_range hk.1 hk.2, h1, Int.add_assoc]
    | output o =>
      cases o with
      | none => exact ⟨v, 0, by simp, .here (by rw [hd]; rfl) (by rw [hd]; simp)⟩
      | some s =>
        have hs : s < v := hr s (by rw [hd]; simp [Def.refs])
        obtain ⟨x, j, h1, h2⟩ := ih s acc (by omega) (by omega)
        exact ⟨x, j, h1, .out hd h2⟩
    | stream => exact ⟨v, 0, by simp, .here (by rw [hd]; rfl) (by rw [hd]; simp)⟩
    | scalar => exact ⟨v, 0, by simp, .here (by rw [hd]; rfl) (by rw [hd]; simp)⟩
    | const => exact ⟨v, 0, by simp, .here (by rw [hd]; rfl) (by rw [hd]; simp)⟩
    | node a => exact ⟨v, 0, by simp, .here (by rw [hd]; rfl) (by rw [hd]; simp)⟩
    | latency s n => exact absurd hd ((hP.fresh v hv).1 s n)
    | erased => exact absurd hd (hP.fresh v hv).2

theorem nearestOf_reads {P : Prog} (hP : WF P) {v : Nat} (hv : v < P.size) :
    Reads P v (nearestOf P v).1 (nearestOf P v).2 := by
  obtain ⟨x, k, h1, h2⟩ := nearest_reads hP (v + 1) v 0 (by omega) hv
  unfold nearestOf; rw [h1]; simpa using h2

theorem sem_reads {α : Type} {P : Prog} {I : Interp α} {v x k} (h : Reads P v x k) :
    ∀ {t a}, Sem P I v t a → Sem P I x (t + k) a := by
  induction h with
  | here => intro t a hs; simpa using hs
  | out h _ ih =>
    intro t a hs
    cases hs with
    | output h2 hs => rw [h] at h2; cases h2; exact ih hs
    | _ => simp_all
  | off h _ ih =>
    intro t a hs
    cases hs with
    | offset h2 hs =>
      rw [h] at h2; cases h2
      rw [← Int.add_assoc]; exact ih hs
    | _ => simp_all

/-! ### Channels -/

theorem mem_channels {P : Prog} {c : Chan} : c ∈ channels P ↔ c.tgt < P.size ∧ c ∈ inChans P c.tgt := by
  unfold channels
  simp only [List.mem_flatMap, List.mem_range]
  constructor
  · rintro ⟨i, hi, hc⟩
    have : c.tgt = i := by
      unfold inChans at hc
      split at hc
      · simp at hc; rw [hc]
      · rw [List.mem_mapIdx] at hc; obtain ⟨j, hj, rfl⟩ := hc; rfl
      · simp at hc
    subst this; exact ⟨hi, hc⟩
  · rintro ⟨h1, h2⟩; exact ⟨_, h1, h2⟩

theorem chan_dep {P : Prog} (hP : WF P) {c : Chan} (h : c ∈ channels P) :
    c.tgt < P.size ∧ Dep P c.src c.tgt c.off := by
  obtain ⟨h1, h2⟩ := mem_channels.1 h
  refine ⟨h1, ?_⟩
  have hr := hP.refs _ h1
  unfold inChans at h2
  split at h2
  · rename_i s hd
    simp only [List.mem_singleton] at h2
    rw [hd] at hr
    have hs : s < P.size := by have := hr s (by simp [Def.refs]); omega
    have h3 : c.src = (nearestOf P s).1 := by rw [h2]
    have h4 : c.off = (nearestOf P s).2 := by rw [h2]
    exact ⟨by rw [hd]; rfl, s, by rw [hd]; simp [Def.refs], by rw [h3, h4]; exact nearestOf_reads hP hs⟩
  · rename_i args hd
    rw [List.mem_mapIdx] at h2
    obtain ⟨j, hj, h2⟩ := h2
    rw [hd] at hr
    have hs : args[j] < P.size := by have := hr args[j] (by simp [Def.refs]); omega
    have h3 : c.src = (nearestOf P args[j]).1 := by rw [← h2]
    have h4 : c.off = (nearestOf P args[j]).2 := by rw [← h2]
    exact ⟨by rw [hd]; rfl, args[j], by rw [hd]; simp [Def.refs], by rw [h3, h4]; exact nearestOf_reads hP hs⟩
  · simp at h2

theorem dep_chan {P : Prog} (hP : WF P) {x n : Nat} {k : Int} (hn : n < P.size) (h : Dep P x n k) :
    ∃ c ∈ channels P, c.src = x ∧ c.tgt = n ∧ c.off = k := by
  obtain ⟨h1, s, hs, hr⟩ := h
  have hlt := hP.refs n hn s hs
  obtain ⟨e1, e2⟩ := Reads.functional hr (nearestOf_reads hP (by omega))
  cases hd : P.defn n with
  | output o =>
    cases o with
    | none => rw [hd] at hs; simp [Def.refs] at hs
    | some s' =>
      rw [hd] at hs; simp [Def.refs] at hs; subst hs
      refine ⟨⟨(nearestOf P s).1, n, -0 - 1, (nearestOf P s).2⟩, mem_channels.2 ⟨hn, ?_⟩, e1.symm, rfl, e2.symm⟩
      simp only [inChans, hd, List.mem_singleton]
  | node args =>
    rw [hd] at hs; simp only [Def.refs] at hs
    obtain ⟨j, hj, rfl⟩ := List.mem_iff_getElem.1 hs
    refine ⟨⟨(nearestOf P args[j]).1, n, wrap8 j, (nearestOf P args[j]).2⟩, mem_channels.2 ⟨hn, ?_⟩, e1.symm, rfl, e2.symm⟩
    simp only [inChans, hd]
    rw [List.mem_mapIdx]; exact ⟨j, hj, rfl⟩
  | _ => rw [hd] at h1 hs; simp [Def.isNode, Def.refs] at h1 hs

theorem chan_lt {P : Prog} (hP : WF P) {c : Chan} (h : c ∈ channels P) : c.src < c.tgt ∧ c.tgt < P.size := by
  obtain ⟨h1, _, s, hs, hr⟩ := chan_dep hP h
  have := hP.refs _ h1 s hs
  have := hr.le hP (by omega)
  exact ⟨by omega, h1⟩

/-- Key of a channel: target and operand index. -/
def Chan.key (c : Chan) : Nat × Int := (c.tgt, c.valInd)

/-- Operands of an operation beyond the 128th are constants (the index type of channels is `int8_t`; constants get no buffers). -/
def Small (P : Prog) : Prop := ∀ i < P.size, ∀ args, P.defn i = .node args →
  ∀ j v, 128 ≤ j → args[j]? = some v → (P.defn (nearestOf P v).1).isConstantInput = true

/-- In particular operations with at most 128 operands. -/
theorem Small.of_length {P : Prog} (h : ∀ i < P.size, ∀ args, P.defn i = .node args → args.length ≤ 128) : Small P := by
  intro i hi args hd j v hj hv
  have := h i hi args hd
  rw [List.getElem?_eq_none (by omega)] at hv
  cases hv

/-- The channels that may get a buffer. -/
def varChans (P : Prog) (cs : List Chan) : List Chan := cs.filter fun c => !(P.defn c.src).isConstantInput

theorem mapIdx_keys_nodup (P : Prog) (i : Nat) (args : List Nat)
    (hs : ∀ j v, 128 ≤ j → args[j]? = some v → (P.defn (nearestOf P v).1).isConstantInput = true) :
    ((varChans P (args.mapIdx fun j v => (⟨(nearestOf P v).1, i, wrap8 j, (nearestOf P v).2⟩ : Chan))).map Chan.key).Nodup := by
  have h0 : ((args.mapIdx fun j v => (⟨(nearestOf P v).1, i, wrap8 j, (nearestOf P v).2⟩ : Chan)).take 128).map Chan.key |>.Nodup := by
    rw [List.nodup_iff_injective_getElem]
    intro a b hab
    have ha := a.2
    have hb := b.2
    simp only [List.length_map, List.length_take, List.length_mapIdx] at ha hb
    simp only [List.getElem_map, List.getElem_take, List.getElem_mapIdx, Chan.key, Prod.mk.injEq, true_and] at hab
    rw [wrap8_small (by omega), wrap8_small (by omega)] at hab
    exact Fin.ext (by omega)
  have h1 : varChans P (args.mapIdx fun j v => (⟨(nearestOf P v).1, i, wrap8 j, (nearestOf P v).2⟩ : Chan)) =
      varChans P ((args.mapIdx fun j v => (⟨(nearestOf P v).1, i, wrap8 j, (nearestOf P v).2⟩ : Chan)).take 128) := by
    conv_lhs => rw [← List.take_append_drop 128 (args.mapIdx fun j v => (⟨(nearestOf P v).1, i, wrap8 j, (nearestOf P v).2⟩ : Chan))]
    unfold varChans
    rw [List.filter_append]
    have : (List.drop 128 (args.mapIdx fun j v => (⟨(nearestOf P v).1, i, wrap8 j, (nearestOf P v).2⟩ : Chan))).filter
        (fun c => !(P.defn c.src).isConstantInput) = [] := by
      rw [List.filter_eq_nil_iff]
      intro c hc
      obtain ⟨j, hj, rfl⟩ := List.mem_iff_getElem.1 hc
      simp only [List.length_drop, List.length_mapIdx] at hj
      simp only [List.getElem_drop, List.getElem_mapIdx]
      rw [hs (128 + j) _ (by omega) (List.getElem?_eq_getElem (by omega))]
      simp
    rw [this, List.append_nil]
  rw [h1]
  exact (List.Sublist.map _ List.filter_sublist).nodup h0

theorem varChans_keys_nodup {P : Prog} (hs : Small P) : ((varChans P (channels P)).map Chan.key).Nodup := by
  unfold channels
  have e : varChans P ((List.range P.size).flatMap (inChans P)) = (List.range P.size).flatMap fun i => varChans P (inChans P i) := by
    unfold varChans
    rw [List.filter_flatMap]
  rw [e, List.map_flatMap, List.nodup_flatMap]
  refine ⟨?_, ?_⟩
  · intro i hi
    have hi := List.mem_range.1 hi
    unfold inChans
    split
    · refine (List.Sublist.map _ List.filter_sublist).nodup ?_
      simp
    · rename_i args hd
      exact mapIdx_keys_nodup P i args (hs i hi args hd)
    · simp [varChans]
  · refine List.Pairwise.imp ?_ List.nodup_range
    intro i j hij
    simp only [Function.onFun]
    intro p h1 h2
    have key : ∀ i, p ∈ (varChans P (inChans P i)).map Chan.key → p.1 = i := by
      intro i h
      obtain ⟨c, hc, rfl⟩ := List.mem_map.1 h
      have hc := (List.mem_filter.1 hc).1
      unfold inChans at hc
      split at hc
      · simp only [List.mem_singleton] at hc; rw [hc]; rfl
      · rw [List.mem_mapIdx] at hc; obtain ⟨j, hj, rfl⟩ := hc; rfl
      · simp at hc
    exact hij (by rw [← key i h1, ← key j h2])

/-! ### ASAP times -/

theorem asapChan_time_mono (P : Prog) (lat : Nat → Int) (st : AsapState) (c : Chan) (n : Nat) :
    st.time n ≤ (asapChan P lat st c).time n := by
  unfold asapChan; simp only; split
  · simp only; split
    · subst_vars; omega
    · exact le_refl _
  · exact le_refl _

theorem asapChan_time_ne (P : Prog) (lat : Nat → Int) (st : AsapState) (c : Chan) (n : Nat) (h : n ≠ c.tgt) :
    (asapChan P lat st c).time n = st.time n := by
  unfold asapChan; simp only; split
  · simp [h]
  · rfl

theorem asapChan_time_tgt (P : Prog) (lat : Nat → Int) (st : AsapState) (c : Chan) :
    (asapChan P lat st c).time c.tgt = max (st.time c.tgt) (st.time c.src + lat c.src + c.off) := by
  unfold asapChan; simp only; split
  · simp only [if_true]; omega
  · omega

theorem foldChan (P : Prog) (lat : Nat → Int) (m : Nat) (cs : List Chan) (hcs : ∀ c ∈ cs, c.src = m ∧ m < c.tgt) :
    ∀ st : AsapState,
    (∀ n ≤ m, (cs.foldl (asapChan P lat) st).time n = st.time n) ∧
    (∀ n, st.time n ≤ (cs.foldl (asapChan P lat) st).time n) ∧
    (∀ c ∈ cs, st.time m + lat m + c.off ≤ (cs.foldl (asapChan P lat) st).time c.tgt) ∧
    (∀ n, (cs.foldl (asapChan P lat) st).time n = st.time n ∨
      ∃ c ∈ cs, c.tgt = n ∧ (cs.foldl (asapChan P lat) st).time n = st.time m + lat m + c.off) ∧
    (st.maxLatency ≤ (cs.foldl (asapChan P lat) st).maxLatency) ∧
    (∀ c ∈ cs, (P.defn c.tgt).isOutput → st.time m + lat m + c.off ≤ (cs.foldl (asapChan P lat) st).maxLatency) ∧
    ((cs.foldl (asapChan P lat) st).maxLatency = st.maxLatency ∨
      ∃ c ∈ cs, (P.defn c.tgt).isOutput ∧ (cs.foldl (asapChan P lat) st).maxLatency = st.time m + lat m + c.off) := by
  induction cs with
  | nil => intro st; simp
  | cons c cs ih =>
    intro st
    obtain ⟨hm, hlt⟩ := hcs c (by simp)
    have hne : m ≠ c.tgt := by omega
    have htm : (asapChan P lat st c).time m = st.time m := asapChan_time_ne P lat st c m hne
    have htgt := asapChan_time_tgt P lat st c
    rw [hm] at htgt
    obtain ⟨h1, h2, h3, h4, h5, h6, h7⟩ := ih (fun c hc => hcs c (by simp [hc])) (asapChan P lat st c)
    rw [htm] at h3 h4 h6 h7
    simp only [List.foldl_cons]
    have hml : (asapChan P lat st c).maxLatency =
        if (P.defn c.tgt).isOutput ∧ st.time m + lat m + c.off > st.maxLatency then st.time m + lat m + c.off
        else st.maxLatency := by
      unfold asapChan; simp only [hm]
    refine ⟨?_, ?_, ?_, ?_, ?_, ?_, ?_⟩
    · intro n hn; rw [h1 n hn, asapChan_time_ne]; omega
    · intro n; exact le_trans (asapChan_time_mono P lat st c n) (h2 n)
    · intro d hd
      rcases List.mem_cons.1 hd with rfl | hd
      · exact le_trans (by rw [htgt]; exact le_max_right _ _) (h2 d.tgt)
      · exact h3 d hd
    · intro n
      rcases h4 n with h | ⟨d, hd, hdn, h⟩
      · by_cases hn : n = c.tgt
        · subst hn
          rw [h, htgt]
          rcases le_total (st.time m + lat m + c.off) (st.time c.tgt) with hle | hle
          · left; exact max_eq_left hle
          · right; exact ⟨c, by simp, rfl, max_eq_right hle⟩
        · left; rw [h, asapChan_time_ne P lat st c n hn]
      · right; exact ⟨d, by simp [hd], hdn, h⟩
    · refine le_trans ?_ h5
      rw [hml]; split <;> omega
    · intro d hd ho
      rcases List.mem_cons.1 hd with rfl | hd
      · refine le_trans ?_ h5
        rw [hml]; split
        · omega
        · rename_i hx; simp only [ho, true_and] at hx; omega
      · exact h6 d hd ho
    · rcases h7 with h | ⟨d, hd, ho, h⟩
      · rw [hml] at h
        by_cases hx : (P.defn c.tgt).isOutput ∧ st.time m + lat m + c.off > st.maxLatency
        · right; exact ⟨c, by simp, hx.1, by rw [h, if_pos hx]⟩
        · left; rw [h, if_neg hx]
      · right; exact ⟨d, by simp [hd], ho, h⟩

/-- What holds after the first `m` nodes have been processed. -/
structure AsapInv (P : Prog) (lat : Nat → Int) (m : Nat) (st : AsapState) : Prop where
  nonneg : ∀ n, 0 ≤ st.time n
  dep    : ∀ c ∈ channels P, c.src < m → st.time c.src + lat c.src + c.off ≤ st.time c.tgt
  tight  : ∀ n, st.time n = 0 ∨ ∃ c ∈ channels P, c.src < m ∧ c.tgt = n ∧ st.time n = st.time c.src + lat c.src + c.off
  max0   : 0 ≤ st.maxLatency
  maxLe  : ∀ c ∈ channels P, c.src < m → (P.defn c.tgt).isOutput → st.time c.src + lat c.src + c.off ≤ st.maxLatency
  maxAt  : st.maxLatency = 0 ∨ ∃ c ∈ channels P, c.src < m ∧ (P.defn c.tgt).isOutput ∧
    st.maxLatency = st.time c.src + lat c.src + c.off

theorem asapNode_inv {P : Prog} (hP : WF P) (lat : Nat → Int) (m : Nat) (st : AsapState)
    (h : AsapInv P lat m st) : AsapInv P lat (m + 1) (asapNode P lat st m) := by
  have hcs : ∀ c ∈ outChans P m, c.src = m ∧ m < c.tgt := by
    intro c hc
    unfold outChans at hc
    rw [List.mem_filter] at hc
    have hs : c.src = m := by simpa using hc.2
    exact ⟨hs, by have := chan_lt hP hc.1; omega⟩
  have hmem : ∀ c, c ∈ channels P → c.src = m → c ∈ outChans P m := by
    intro c hc hs; unfold outChans; rw [List.mem_filter]; exact ⟨hc, by simpa using hs⟩
  have hmem' : ∀ c, c ∈ outChans P m → c ∈ channels P := by
    intro c hc; unfold outChans at hc; exact (List.mem_filter.1 hc).1
  obtain ⟨h1, h2, h3, h4, h5, h6, h7⟩ := foldChan P lat m (outChans P m) hcs st
  change (∀ n ≤ m, (asapNode P lat st m).time n = st.time n) at h1
  change ∀ n, st.time n ≤ (asapNode P lat st m).time n at h2
  change ∀ c ∈ outChans P m, st.time m + lat m + c.off ≤ (asapNode P lat st m).time c.tgt at h3
  change ∀ n, (asapNode P lat st m).time n = st.time n ∨ ∃ c ∈ outChans P m, c.tgt = n ∧
    (asapNode P lat st m).time n = st.time m + lat m + c.off at h4
  change st.maxLatency ≤ (asapNode P lat st m).maxLatency at h5
  change ∀ c ∈ outChans P m, (P.defn c.tgt).isOutput →
    st.time m + lat m + c.off ≤ (asapNode P lat st m).maxLatency at h6
  change (asapNode P lat st m).maxLatency = st.maxLatency ∨ ∃ c ∈ outChans P m, (P.defn c.tgt).isOutput ∧
    (asapNode P lat st m).maxLatency = st.time m + lat m + c.off at h7
  generalize asapNode P lat st m = st' at *
  refine ⟨?_, ?_, ?_, ?_, ?_, ?_⟩
  · intro n; exact le_trans (h.nonneg n) (h2 n)
  · intro c hc hs
    by_cases he : c.src = m
    · rw [he, h1 m (le_refl _)]; exact h3 c (hmem c hc he)
    · rw [h1 c.src (by omega)]
      exact le_trans (h.dep c hc (by omega)) (h2 _)
  · intro n
    rcases h4 n with h' | ⟨c, hc, hn, h'⟩
    · rcases h.tight n with h0 | ⟨c, hc, hs, hn, he⟩
      · left; omega
      · right; exact ⟨c, hc, by omega, hn, by rw [h1 c.src (by omega)]; omega⟩
    · right
      have hs := (hcs c hc).1
      exact ⟨c, hmem' c hc, by omega, hn, by rw [hs, h1 m (le_refl _)]; exact h'⟩
  · exact le_trans h.max0 h5
  · intro c hc hs ho
    by_cases he : c.src = m
    · rw [he, h1 m (le_refl _)]; exact h6 c (hmem c hc he) ho
    · rw [h1 c.src (by omega)]
      exact le_trans (h.maxLe c hc (by omega) ho) h5
  · rcases h7 with h' | ⟨c, hc, ho, h'⟩
    · rcases h.maxAt with h0 | ⟨c, hc, hs, ho, he⟩
      · left; omega
      · right; exact ⟨c, hc, by omega, ho, by rw [h1 c.src (by omega)]; omega⟩
    · right
      have hs := (hcs c hc).1
      exact ⟨c, hmem' c hc, by omega, ho, by rw [hs, h1 m (le_refl _)]; exact h'⟩

theorem asap_inv {P : Prog} (hP : WF P) (lat : Nat → Int) : AsapInv P lat P.size (asap P lat) := by
  unfold asap
  generalize P.size = m
  induction m with
  | zero => exact ⟨by simp, by simp, by simp, by simp, by simp, by simp⟩
  | succ m ih =>
    rw [List.range_succ, List.foldl_append]
    exact asapNode_inv hP lat m _ ih

/-! ### Buffer insertion -/

/-- Operand `w` of the buffered program stands for operand `v` of the original at key `(i, ind)`. -/
def Operand (size0 : Nat) (bs : List (Chan × Int)) (P1 : Prog) (i : Nat) (ind : Int) (v w : Nat) : Prop :=
  (∃ c b, (c, b) ∈ bs ∧ c.tgt = i ∧ c.valInd = ind ∧ P1.defn w = .latency v b ∧ size0 ≤ w ∧ w < P1.size) ∨
  ((∀ p ∈ bs, ¬ (p.1.tgt = i ∧ p.1.valInd = ind)) ∧ w = v)

/-- Relation between the program and the program after inserting the buffers `bs`. -/
structure Buffered (P : Prog) (bs : List (Chan × Int)) (P1 : Prog) : Prop where
  size  : P.size ≤ P1.size
  node  : ∀ i < P.size, ∀ args, P.defn i = .node args → ∃ args', P1.defn i = .node args' ∧
    args'.length = args.length ∧ ∀ (j : Nat) v w, args[j]? = some v → args'[j]? = some w → Operand P.size bs P1 i (j : Int) v w
  out   : ∀ i < P.size, ∀ s, P.defn i = .output (some s) → ∃ w, P1.defn i = .output (some w) ∧
    Operand P.size bs P1 i (-1) s w
  same  : ∀ i < P.size, (∀ args, P.defn i ≠ .node args) → (∀ s, P.defn i ≠ .output (some s)) → P1.defn i = P.defn i
  fresh : ∀ i, P.size ≤ i → i < P1.size → ∃ s b, P1.defn i = .latency s b

theorem Buffered.refl (P : Prog) : Buffered P [] P where
  size := le_refl _
  node := fun i _ args h => ⟨args, h, rfl, fun j v w h1 h2 => .inr ⟨by simp, by rw [h1] at h2; cases h2; rfl⟩⟩
  out := fun i _ s h => ⟨s, h, .inr ⟨by simp, rfl⟩⟩
  same := fun i _ _ _ => rfl
  fresh := fun i h1 h2 => by omega

/-- Operands at other keys are not affected by one more insertion. -/
theorem Operand.mono {size0 : Nat} {bs : List (Chan × Int)} {P1 P2 : Prog} {i : Nat} {ind : Int} {v w : Nat}
    {c : Chan} {b : Int}
    (h : Operand size0 bs P1 i ind v w) (hsz : P1.size ≤ P2.size)
    (hdef : ∀ u, size0 ≤ u → u < P1.size → P2.defn u = P1.defn u) (hk : ¬ (c.tgt = i ∧ c.valInd = ind)) :
    Operand size0 (bs ++ [(c, b)]) P2 i ind v w := by
  rcases h with ⟨d, e, hm, h1, h2, h3, h4, h5⟩ | ⟨h1, h2⟩
  · exact .inl ⟨d, e, by simp [hm], h1, h2, by rw [hdef w h4 h5]; exact h3, h4, by omega⟩
  · refine .inr ⟨?_, h2⟩
    intro p hp
    rcases List.mem_append.1 hp with hp | hp
    · exact h1 p hp
    · simp only [List.mem_singleton] at hp; subst hp; exact hk

theorem insertBuffer_step {P P1 : Prog} (hs : Small P) {bs : List (Chan × Int)} {c : Chan} {b : Int}
    (h : Buffered P bs P1) (hc : c ∈ channels P) (hcv : (P.defn c.src).isConstantInput = false) (hb : 0 < b) (hk : ∀ p ∈ bs, p.1.key ≠ c.key) :
    ∃ P2, insertBuffer P1 c b = .ok P2 ∧ Buffered P (bs ++ [(c, b)]) P2 := by
  obtain ⟨htgt, hin⟩ := mem_channels.1 hc
  have hnk : ∀ p ∈ bs, ¬ (p.1.tgt = c.tgt ∧ p.1.valInd = c.valInd) := by
    intro p hp ⟨h1, h2⟩; exact hk p hp (by simp [Chan.key, h1, h2])
  have hsz := h.size
  unfold inChans at hin
  split at hin
  · -- output
    rename_i s hd
    simp only [List.mem_singleton] at hin
    have hvi : c.valInd = -1 := by rw [hin]; rfl
    obtain ⟨w, hw, hop⟩ := h.out c.tgt htgt s hd
    have hws : w = s := by
      rcases hop with ⟨d, e, hm, h1, h2, _⟩ | ⟨_, h2⟩
      · exact absurd ⟨h1, by rw [h2, hvi]⟩ (hnk (d, e) hm)
      · exact h2
    subst hws
    let P2 : Prog := { size := P1.size + 1
                       defn := ((P1.set c.tgt (.output (some P1.size))).set P1.size (.latency w b)).defn }
    have hdef : ∀ u, u ≠ c.tgt → u ≠ P1.size → P2.defn u = P1.defn u := by
      intro u h1 h2; simp [P2, Prog.set, h1, h2]
    have hdt : P2.defn c.tgt = .output (some P1.size) := by
      have : c.tgt ≠ P1.size := by omega
      simp [P2, Prog.set, this]
    have hdn : P2.defn P1.size = .latency w b := by simp [P2, Prog.set]
    have hmono : ∀ i ind v x, ¬ (c.tgt = i ∧ c.valInd = ind) → Operand P.size bs P1 i ind v x →
        Operand P.size (bs ++ [(c, b)]) P2 i ind v x := by
      intro i ind v x hx ho
      exact ho.mono (by simp [P2]) (fun u h1 h2 => hdef u (by omega) (by omega)) hx
    refine ⟨P2, ?_, ?_⟩
    · simp only [insertBuffer, if_neg (by omega : ¬ b ≤ 0), hvi, hw, P2]
      rfl
    · refine ⟨by simp [P2]; omega, ?_, ?_, ?_, ?_⟩
      · intro i hi args ha
        have hne : i ≠ c.tgt := by rintro rfl; rw [hd] at ha; cases ha
        obtain ⟨args', h1, h2, h3⟩ := h.node i hi args ha
        refine ⟨args', by rw [hdef i hne (by omega)]; exact h1, h2, ?_⟩
        intro j v x hv hx
        exact hmono i j v x (fun hh => hne hh.1.symm) (h3 j v x hv hx)
      · intro i hi s' ho
        by_cases hne : i = c.tgt
        · subst hne
          rw [hd] at ho; cases ho
          refine ⟨P1.size, hdt, .inl ⟨c, b, by simp, rfl, hvi, hdn, hsz, by simp [P2]⟩⟩
        · obtain ⟨x, h1, h2⟩ := h.out i hi s' ho
          exact ⟨x, by rw [hdef i hne (by omega)]; exact h1, hmono i (-1) s' x (fun hh => hne hh.1.symm) h2⟩
      · intro i hi h1 h2
        have hne : i ≠ c.tgt := by rintro rfl; exact h2 _ hd
        rw [hdef i hne (by omega)]; exact h.same i hi h1 h2
      · intro i h1 h2
        simp only [P2] at h2
        by_cases hi : i = P1.size
        · subst hi; exact ⟨_, _, hdn⟩
        · rw [hdef i (by omega) hi]; exact h.fresh i h1 (by omega)
  · -- node
    rename_i args hd
    rw [List.mem_mapIdx] at hin
    obtain ⟨j, hj, hin⟩ := hin
    have hjl : j < 128 := by
      by_contra hge
      have := hs c.tgt htgt args hd j args[j] (by omega) (List.getElem?_eq_getElem hj)
      rw [← hin] at hcv
      rw [this] at hcv
      cases hcv
    have hvi : c.valInd = j := by rw [← hin]; exact wrap8_small hjl
    obtain ⟨args', hw, hlen, hop⟩ := h.node c.tgt htgt args hd
    have hj' : j < args'.length := by omega
    have hwv : args'[j] = args[j] := by
      rcases hop j args[j] args'[j] (List.getElem?_eq_getElem hj) (List.getElem?_eq_getElem hj') with
        ⟨d, e, hm, h1, h2, _⟩ | ⟨_, h2⟩
      · exact absurd ⟨h1, by rw [h2, hvi]⟩ (hnk (d, e) hm)
      · exact h2
    let P2 : Prog := { size := P1.size + 1
                       defn := ((P1.set c.tgt (.node (args'.set j P1.size))).set P1.size (.latency args[j] b)).defn }
    have hdef : ∀ u, u ≠ c.tgt → u ≠ P1.size → P2.defn u = P1.defn u := by
      intro u h1 h2; simp [P2, Prog.set, h1, h2]
    have hdt : P2.defn c.tgt = .node (args'.set j P1.size) := by
      have : c.tgt ≠ P1.size := by omega
      simp [P2, Prog.set, this]
    have hdn : P2.defn P1.size = .latency args[j] b := by simp [P2, Prog.set]
    have hmono : ∀ i ind v x, ¬ (c.tgt = i ∧ c.valInd = ind) → Operand P.size bs P1 i ind v x →
        Operand P.size (bs ++ [(c, b)]) P2 i ind v x := by
      intro i ind v x hx ho
      exact ho.mono (by simp [P2]) (fun u h1 h2 => hdef u (by omega) (by omega)) hx
    refine ⟨P2, ?_, ?_⟩
    · have e : c.valInd.toNat = j := by rw [hvi]; simp
      simp only [insertBuffer, if_neg (by omega : ¬ b ≤ 0), if_pos (by omega : 0 ≤ c.valInd), hw, e,
        List.getElem?_eq_getElem hj', hwv, P2]
    · refine ⟨by simp [P2]; omega, ?_, ?_, ?_, ?_⟩
      · intro i hi args2 ha
        by_cases hne : i = c.tgt
        · subst hne
          rw [hd] at ha; cases ha
          refine ⟨_, hdt, by simp [hlen], ?_⟩
          intro j2 v x hv hx
          by_cases hjj : j2 = j
          · subst hjj
            rw [List.getElem?_set_self hj'] at hx
            rw [List.getElem?_eq_getElem hj] at hv
            cases hx; cases hv
            exact .inl ⟨c, b, by simp, rfl, hvi, hdn, hsz, by simp [P2]⟩
          · rw [List.getElem?_set_ne (by omega)] at hx
            exact hmono _ _ _ _ (fun hh => hjj (by have := hh.2; omega)) (hop j2 v x hv hx)
        · obtain ⟨a', h1, h2, h3⟩ := h.node i hi args2 ha
          refine ⟨a', by rw [hdef i hne (by omega)]; exact h1, h2, ?_⟩
          intro j2 v x hv hx
          exact hmono i j2 v x (fun hh => hne hh.1.symm) (h3 j2 v x hv hx)
      · intro i hi s' ho
        have hne : i ≠ c.tgt := by rintro rfl; rw [hd] at ho; cases ho
        obtain ⟨x, h1, h2⟩ := h.out i hi s' ho
        exact ⟨x, by rw [hdef i hne (by omega)]; exact h1, hmono i (-1) s' x (fun hh => hne hh.1.symm) h2⟩
      · intro i hi h1 h2
        have hne : i ≠ c.tgt := by rintro rfl; exact h1 _ hd
        rw [hdef i hne (by omega)]; exact h.same i hi h1 h2
      · intro i h1 h2
        simp only [P2] at h2
        by_cases hi : i = P1.size
        · subst hi; exact ⟨_, _, hdn⟩
        · rw [hdef i (by omega) hi]; exact h.fresh i h1 (by omega)
  · simp at hin

theorem insertBuffers_spec {P : Prog} (hs : Small P) : ∀ (rest done : List (Chan × Int)) (P1 : Prog),
    Buffered P done P1 → (∀ p ∈ rest, p.1 ∈ channels P ∧ (P.defn p.1.src).isConstantInput = false ∧ 0 < p.2) →
    ((done ++ rest).map (fun p => p.1.key)).Nodup →
    ∃ P2, insertBuffers P1 rest = .ok P2 ∧ Buffered P (done ++ rest) P2 := by
  intro rest
  induction rest with
  | nil => intro done P1 h _ _; exact ⟨P1, rfl, by simpa using h⟩
  | cons p rest ih =>
    intro done P1 h hall hnd
    obtain ⟨c, b⟩ := p
    have hcb := hall (c, b) (by simp)
    have hk : ∀ p ∈ done, p.1.key ≠ c.key := by
      intro p hp he
      rw [List.map_append, List.nodup_append] at hnd
      exact hnd.2.2 _ (List.mem_map.2 ⟨p, hp, rfl⟩) _ (by simp) he
    obtain ⟨P2, h1, h2⟩ := insertBuffer_step hs h hcb.1 hcb.2.1 hcb.2.2 hk
    obtain ⟨P3, h3, h4⟩ := ih (done ++ [(c, b)]) P2 h2 (fun p hp => hall p (by simp [hp])) (by simpa using hnd)
    refine ⟨P3, ?_, by simpa using h4⟩
    simp only [insertBuffers, h1, h3]

/-! ### Offset removal -/

def IsOffset (P : Prog) (v : Nat) : Prop := ∃ s k, P.defn v = .offset s k

theorem subst_offset_iff (d : Def) (p s : Nat) : (∃ s' k, d.subst p s = .offset s' k) ↔ ∃ s' k, d = .offset s' k := by
  cases d with
  | output o => cases o <;> simp [Def.subst]
  | _ => simp [Def.subst]

/-- Offsets refer to smaller numbers. -/
def OffsetsDown (P : Prog) : Prop := ∀ v s k, v < P.size → P.defn v = .offset s k → s < v

theorem eraseOne_size (P : Prog) (p : Nat) : (eraseOne P p).size = P.size := by unfold eraseOne; split <;> rfl

theorem eraseOne_down {P : Prog} (h : OffsetsDown P) (p : Nat) (hp : p < P.size) : OffsetsDown (eraseOne P p) := by
  unfold eraseOne
  split
  · rename_i s k hd
    intro v s' k' hlt hv
    simp only at hv hlt
    split at hv
    · cases hv
    · cases hdv : P.defn v with
      | offset u m =>
        rw [hdv] at hv; simp only [Def.subst, Def.offset.injEq] at hv
        have h1 := h v u m hlt hdv
        have h2 := h p s k hp hd
        split at hv <;> omega
      | output o => rw [hdv] at hv; cases o <;> simp [Def.subst] at hv
      | _ => rw [hdv] at hv; simp [Def.subst] at hv
  · exact h

theorem eraseOne_offset {P : Prog} (p v : Nat) (h : IsOffset (eraseOne P p) v) : IsOffset P v ∧ v ≠ p := by
  unfold eraseOne at h
  split at h
  · rename_i s k hd
    obtain ⟨s', k', h⟩ := h
    simp only at h
    split at h
    · cases h
    · rename_i hne
      exact ⟨(subst_offset_iff _ p s).1 ⟨s', k', h⟩, hne⟩
  · rename_i hd
    refine ⟨h, ?_⟩
    rintro rfl
    obtain ⟨s', k', h⟩ := h
    exact hd _ _ h

theorem eraseOne_hw {α : Type} {P : Prog} (hdn : OffsetsDown P) (p : Nat) (hp : p < P.size) (I : Interp α) (lat : Nat → Int)
    (σ : Nat → Int → α) (h : HwRun (eraseOne P p) I lat σ) :
    ∃ σ', HwRun P I lat σ' ∧ ∀ v, ¬ IsOffset P v → σ' v = σ v := by
  unfold eraseOne at h
  split at h
  · rename_i s k hd
    have hsp : s ≠ p := by have := hdn p s k hp hd; omega
    refine ⟨fun v => if v = p then σ s else σ v, ?_, ?_⟩
    · intro v hv
      have hv' := h v hv
      simp only at hv'
      by_cases hvp : v = p
      · subst hvp
        rw [hd]; intro c _; simp [hsp]
      · rw [if_neg hvp] at hv'
        cases hdv : P.defn v with
        | output o =>
          cases o with
          | none => trivial
          | some u =>
            rw [hdv] at hv'; simp only [Def.subst] at hv'
            intro c hc
            simp only [hvp, if_false]
            rw [hv' c hc]; split <;> rfl
        | node args =>
          rw [hdv] at hv'; simp only [Def.subst] at hv'
          intro c hc
          simp only [hvp, if_false]
          rw [hv' c hc, List.map_map]
          congr 1
          refine List.map_congr_left fun u _ => ?_
          simp only [Function.comp]; split <;> rfl
        | offset u m =>
          rw [hdv] at hv'; simp only [Def.subst] at hv'
          intro c hc
          simp only [hvp, if_false]
          rw [hv' c hc]; split <;> rfl
        | latency u m =>
          rw [hdv] at hv'; simp only [Def.subst] at hv'
          intro c hc
          simp only [hvp, if_false]
          rw [hv' c hc]; split <;> rfl
        | stream => rw [hdv] at hv'; simpa [Def.subst, hvp] using hv'
        | scalar => rw [hdv] at hv'; simpa [Def.subst, hvp] using hv'
        | const => rw [hdv] at hv'; simpa [Def.subst, hvp] using hv'
        | erased => trivial
    · intro v hv
      have : v ≠ p := by rintro rfl; exact hv ⟨s, k, hd⟩
      simp [this]
  · exact ⟨σ, h, fun _ _ => rfl⟩

theorem eraseFold {α : Type} (l : List Nat) : ∀ {P : Prog}, OffsetsDown P → (∀ p ∈ l, p < P.size) →
    (∀ v, IsOffset (l.foldl eraseOne P) v → IsOffset P v ∧ v ∉ l) ∧
    (l.foldl eraseOne P).size = P.size ∧
    ∀ (I : Interp α) (lat : Nat → Int) (σ : Nat → Int → α), HwRun (l.foldl eraseOne P) I lat σ →
      ∃ σ', HwRun P I lat σ' ∧ ∀ v, ¬ IsOffset P v → σ' v = σ v := by
  induction l with
  | nil => intro P h _; exact ⟨fun v hv => ⟨hv, by simp⟩, rfl, fun I lat σ hr => ⟨σ, hr, fun _ _ => rfl⟩⟩
  | cons p l ih =>
    intro P h hl
    have hp := hl p (by simp)
    obtain ⟨h1, h2, h3⟩ := ih (eraseOne_down h p hp) (fun q hq => by rw [eraseOne_size]; exact hl q (by simp [hq]))
    refine ⟨?_, ?_, ?_⟩
    · intro v hv
      obtain ⟨h4, h5⟩ := h1 v hv
      obtain ⟨h6, h7⟩ := eraseOne_offset p v h4
      exact ⟨h6, by simp [h7, h5]⟩
    · simp only [List.foldl_cons, h2]; unfold eraseOne; split <;> rfl
    · intro I lat σ hr
      obtain ⟨σ1, h4, h5⟩ := h3 I lat σ hr
      obtain ⟨σ2, h6, h7⟩ := eraseOne_hw h p hp I lat σ1 h4
      refine ⟨σ2, h6, ?_⟩
      intro v hv
      rw [h7 v hv, h5 v (fun hx => hv (eraseOne_offset p v hx).1)]

end Verif.Sched
