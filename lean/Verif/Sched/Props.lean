import Verif.Sched.Lemmas
/-
Properties C25-C27, C32, C35, C50: the ASAP scheduler and buffer insertion.
-/
namespace Verif.Sched
open Verif.Dfcxx (Fault)

/-! ### C25, C26: the schedule -/

/-- **C25.**  The start times computed by ASAP are a schedule: non-negative, 0 for stream inputs, and every consumer
starts no earlier than producer start + producer latency + offset. -/
theorem asap_meets_dependencies {P : Prog} (hP : WF P) (lat : Nat → Int) : Schedule P lat (asap P lat).time := by
  have h := asap_inv hP lat
  refine ⟨h.nonneg, ?_, ?_⟩
  · intro n hn hd
    rcases h.tight n with h0 | ⟨c, hc, _, ht, _⟩
    · exact h0
    · obtain ⟨_, h2⟩ := mem_channels.1 hc
      rw [ht] at h2; simp [inChans, hd] at h2
  · intro x n k hn hdep
    obtain ⟨c, hc, rfl, rfl, rfl⟩ := dep_chan hP hn hdep
    exact h.dep c hc (by have := chan_lt hP hc; omega)

/-- **C26.**  ASAP is optimal: any other schedule starts every operation no earlier. -/
theorem asap_minimal {P : Prog} (hP : WF P) (lat S : Nat → Int) (hS : Schedule P lat S) :
    ∀ n, (asap P lat).time n ≤ S n := by
  have h := asap_inv hP lat
  intro n
  induction n using Nat.strongRecOn with
  | _ n ih =>
    rcases h.tight n with h0 | ⟨c, hc, _, ht, he⟩
    · have := hS.nonneg n; omega
    · have hlt := chan_lt hP hc
      obtain ⟨h1, h2⟩ := chan_dep hP hc
      have h3 := hS.dep _ _ _ h1 h2
      have h4 := ih c.src (by omega)
      rw [ht] at h3; omega

/-- C26: every start time is 0 or forced by some dependency, so it is the length of a dependency path. -/
theorem asap_tight {P : Prog} (hP : WF P) (lat : Nat → Int) (n : Nat) :
    (asap P lat).time n = 0 ∨ ∃ x k, n < P.size ∧ Dep P x n k ∧ (asap P lat).time n = (asap P lat).time x + lat x + k := by
  rcases (asap_inv hP lat).tight n with h0 | ⟨c, hc, _, ht, he⟩
  · exact .inl h0
  · obtain ⟨h1, h2⟩ := chan_dep hP hc
    rw [ht] at h1 h2
    exact .inr ⟨c.src, c.off, h1, h2, he⟩

/-- C26: the reported latency is the largest start time of an output (0 if there is none). -/
theorem asap_reported_latency {P : Prog} (hP : WF P) (lat : Nat → Int) :
    (∀ o < P.size, (P.defn o).isOutput → (asap P lat).time o ≤ (asap P lat).maxLatency) ∧
    ((asap P lat).maxLatency = 0 ∨
      ∃ o < P.size, (P.defn o).isOutput ∧ (asap P lat).time o = (asap P lat).maxLatency) := by
  have h := asap_inv hP lat
  refine ⟨?_, ?_⟩
  · intro o ho hout
    rcases h.tight o with h0 | ⟨c, hc, hs, ht, he⟩
    · rw [h0]; exact h.max0
    · rw [he]; exact h.maxLe c hc hs (by rw [ht]; exact hout)
  · rcases h.maxAt with h0 | ⟨c, hc, hs, ho, he⟩
    · exact .inl h0
    · right
      refine ⟨c.tgt, (chan_lt hP hc).2, ho, ?_⟩
      have h1 := h.dep c hc hs
      have h2 : (asap P lat).time c.tgt ≤ (asap P lat).maxLatency := by
        rcases h.tight c.tgt with h0 | ⟨d, hd, hs', ht, he'⟩
        · rw [h0]; exact h.max0
        · rw [he']; exact h.maxLe d hd hs' (by rw [ht]; exact ho)
      omega

/-! ### C27: the pipeline computes the stream function -/

/-- For every output that is also read inside the kernel, no buffer is requested on its own connection. -/
def ReadOutputsTight (P : Prog) (lat T : Nat → Int) : Prop :=
  ∀ o, ReadOutput P o → ∀ x k, Dep P x o k → (P.defn x).isConstantInput = false → T o = T x + lat x + k

theorem buffersFor_mem {P : Prog} {lat T : Nat → Int} {p : Chan × Int} :
    p ∈ buffersFor P lat T ↔ p.1 ∈ channels P ∧ p.2 = T p.1.tgt - (T p.1.src + lat p.1.src + p.1.off) ∧ p.2 ≠ 0 ∧
      (P.defn p.1.src).isConstantInput = false := by
  unfold buffersFor
  simp only [List.mem_filterMap]
  constructor
  · rintro ⟨c, hc, h⟩
    split at h
    · rename_i hh; cases h; exact ⟨hc, rfl, hh.1, hh.2⟩
    · cases h
  · rintro ⟨h1, h2, h3, h4⟩
    refine ⟨p.1, h1, ?_⟩
    rw [if_pos ⟨by rw [← h2]; exact h3, h4⟩, ← h2]

theorem buffersFor_keys_nodup {P : Prog} (hs : Small P) (lat T : Nat → Int) :
    ((buffersFor P lat T).map (fun p => p.1.key)).Nodup := by
  have h := varChans_keys_nodup hs
  have : (buffersFor P lat T).map (fun p => p.1.key) =
      ((varChans P (channels P)).filter (fun c => decide (T c.tgt - (T c.src + lat c.src + c.off) ≠ 0))).map Chan.key := by
    unfold buffersFor varChans
    induction channels P with
    | nil => rfl
    | cons c cs ih =>
      rw [List.filterMap_cons, List.filter_cons]
      simp only
      cases hc : (P.defn c.src).isConstantInput
      · simp only [Bool.not_false, if_true, List.filter_cons]
        by_cases hd : T c.tgt - (T c.src + lat c.src + c.off) = 0
        · simp only [hd, ne_eq, not_true_eq_false, false_and, if_false, decide_false, Bool.false_eq_true]
          exact ih
        · simp only [hd, ne_eq, not_false_eq_true, true_and, if_true, decide_true, List.map_cons]
          rw [ih]
      · simp only [Bool.not_true, Bool.false_eq_true, if_false, Bool.true_eq_false, and_false]
        exact ih
  rw [this]
  exact (List.Sublist.map _ List.filter_sublist).nodup h

/-- One operand of the buffered netlist carries, at cycle `T n + t`, element `t` of the stream the original operand
denotes. -/
theorem operand_value {α : Type} {P P1 : Prog} {lat T : Nat → Int} (hT : Schedule P lat T)
    (I : Interp α) (σ : Nat → Int → α) (hrun : HwRun P1 I lat σ)
    (hwire : ∀ n < P.size, ∀ s ∈ (P.defn n).refs, ∀ x k, Reads P s x k → ∀ c, 0 ≤ c → σ s c = σ x c)
    {bs : List (Chan × Int)} (hbs : ∀ p, p ∈ bs ↔ p ∈ buffersFor P lat T)
    {n : Nat} (hn : n < P.size) (hnode : (P.defn n).isNode) {s : Nat} (hs : s ∈ (P.defn n).refs) {ind : Int}
    (hch : ∀ x k, Reads P s x k → (P.defn x).isConstantInput = false → (⟨x, n, ind, k⟩ : Chan) ∈ channels P)
    (huniq : ∀ c ∈ channels P, (P.defn c.src).isConstantInput = false → c.tgt = n → c.valInd = ind → ∀ x k, Reads P s x k → c = ⟨x, n, ind, k⟩)
    {w : Nat} (hw : Operand P.size bs P1 n ind s w) {t : Int} (ht : 0 ≤ t) {a : α} {x : Nat} {k : Int}
    (hr : Reads P s x k)
    (hc : (P.defn x).isConstantInput = true → ∀ c, 0 ≤ c → σ x c = a)
    (hnc : (P.defn x).isConstantInput = false → 0 ≤ T x + lat x + (t + k) ∧ σ x (T x + lat x + (t + k)) = a) :
    σ w (T n + t) = a := by
  have hdep := hT.dep x n k hn ⟨hnode, s, hs, hr⟩
  have hTn := hT.nonneg n
  rcases hw with ⟨c, b, hm, h1, h2, h3, h4, h5⟩ | ⟨hnone, rfl⟩
  · -- buffered
    obtain ⟨hc1, hc2, hc3, hc4⟩ := buffersFor_mem.1 ((hbs _).1 hm)
    have : c = ⟨x, n, ind, k⟩ := huniq c hc1 hc4 h1 h2 x k hr
    subst this
    simp only at hc2 hc3 hc4
    obtain ⟨hp, hv⟩ := hnc hc4
    have hl := hrun w h5
    rw [h3] at hl; simp only at hl
    rw [hl _ (by omega), hwire n hn s hs x k hr _ (by omega)]
    rw [show T n + t - b = T x + lat x + (t + k) by omega]
    exact hv
  · rw [hwire n hn _ hs x k hr _ (by omega)]
    cases hcx : (P.defn x).isConstantInput with
    | true => exact hc hcx _ (by omega)
    | false =>
      obtain ⟨hp, hv⟩ := hnc hcx
      by_cases hd : T n - (T x + lat x + k) = 0
      · rw [show T n + t = T x + lat x + (t + k) by omega]; exact hv
      · exfalso
        exact hnone (⟨x, n, ind, k⟩, T n - (T x + lat x + k)) ((hbs _).2 (buffersFor_mem.2 ⟨hch x k hr hcx, rfl, hd, hcx⟩))
          ⟨rfl, rfl⟩

/-- **C27/C28 core.**  For *any* schedule of a well-formed kernel (operands beyond the 128th of an operation constant,
outputs read inside the kernel not themselves delayed), inserting the buffers the schedule asks for -- in any
order -- and erasing the offsets succeeds, and in every run of the resulting netlist, whatever its registers held
at start-up, each operation shows at cycle `T v + lat v + t` element `t` of its stream. -/
theorem schedule_pipeline_correct {P : Prog} (hP : WF P) (hsm : Small P) {lat T : Nat → Int} (hlat : LatOk P lat)
    (hT : Schedule P lat T) (hread : ReadOutputsTight P lat T) (bs : List (Chan × Int))
    (hbs : bs.Perm (buffersFor P lat T)) :
    ∃ P', applySchedule P bs = .ok P' ∧ NoOffsets P' ∧ P.size ≤ P'.size ∧
      ∀ (α : Type) (I : Interp α) (σ : Nat → Int → α), HwRun P' I lat σ →
        ∀ v < P.size, (P.defn v).isNode → ∀ t, 0 ≤ t → ∀ a, Sem P I v t a → σ v (T v + lat v + t) = a := by
  have hmem : ∀ p, p ∈ bs ↔ p ∈ buffersFor P lat T := fun p => hbs.mem_iff
  obtain ⟨P1, hins, hbuf⟩ := insertBuffers_spec hsm bs [] P (Buffered.refl P)
    (by
      intro p hp
      obtain ⟨h1, h2, h3, h6⟩ := buffersFor_mem.1 ((hmem p).1 hp)
      obtain ⟨h4, h5⟩ := chan_dep hP h1
      have := hT.dep _ _ _ h4 h5
      exact ⟨h1, h6, by omega⟩)
    (by
      rw [List.nil_append]
      exact (hbs.map _).nodup_iff.2 (buffersFor_keys_nodup hsm lat T))
  rw [List.nil_append] at hbuf
  -- defs of P1 that are offsets are those of P
  have hoff1 : ∀ v, v < P1.size → ∀ s k, P1.defn v = .offset s k → v < P.size ∧ P.defn v = .offset s k := by
    intro v hv s k hd
    by_cases hvs : v < P.size
    · refine ⟨hvs, ?_⟩
      by_cases h1 : ∃ args, P.defn v = .node args
      · obtain ⟨args, h1⟩ := h1
        obtain ⟨a', h2, _⟩ := hbuf.node v hvs args h1
        rw [h2] at hd; cases hd
      · by_cases h2 : ∃ s, P.defn v = .output (some s)
        · obtain ⟨s', h2⟩ := h2
          obtain ⟨w, h3, _⟩ := hbuf.out v hvs s' h2
          rw [h3] at hd; cases hd
        · rw [← hbuf.same v hvs (fun a ha => h1 ⟨a, ha⟩) (fun s hs => h2 ⟨s, hs⟩)]; exact hd
    · obtain ⟨s', b, h1⟩ := hbuf.fresh v (by omega) hv
      rw [h1] at hd; cases hd
  -- restrict the program to its range so that offsets point down everywhere
  have hdown : ∀ v s k, v < P1.size → P1.defn v = .offset s k → s < v := by
    intro v s k hv hd
    obtain ⟨h1, h2⟩ := hoff1 v hv s k hd
    exact hP.refs v h1 s (by rw [h2]; simp [Def.refs])
  obtain ⟨heo, hes, _⟩ := eraseFold (α := Unit) (List.range P.size) (P := P1) (fun v s k => hdown v s k)
    (fun p hp => by have := List.mem_range.1 hp; have := hbuf.size; omega)
  refine ⟨eraseOffsets P.size P1, by simp only [applySchedule, hins], ?_, by simp only [eraseOffsets, hes]; exact hbuf.size, ?_⟩
  · intro i hi s k hd
    obtain ⟨⟨s', k', h1⟩, h2⟩ := heo i ⟨s, k, hd⟩
    have hi1 : i < P1.size := by simpa only [eraseOffsets, hes] using hi
    exact h2 (List.mem_range.2 (hoff1 i hi1 s' k' h1).1)
  · intro α I σ hrun
    obtain ⟨_, _, her⟩ := eraseFold (α := α) (List.range P.size) (P := P1) (fun v s k => hdown v s k)
      (fun p hp => by have := List.mem_range.1 hp; have := hbuf.size; omega)
    obtain ⟨σ1, hrun1, hagree⟩ := her I lat σ hrun
    have hsz := hbuf.size
    -- operands read through offsets and outputs are wires
    have hwire : ∀ s x k, Reads P s x k → ∀ n < P.size, s ∈ (P.defn n).refs → ∀ c, 0 ≤ c → σ1 s c = σ1 x c := by
      intro s x k hr
      induction hr with
      | here => intros; rfl
      | @out s s' x k h hr ih =>
        intro n hn hsn c hc
        have hsl : s < P.size := by have := hP.refs n hn s hsn; omega
        have hs' : s' ∈ (P.defn s).refs := by rw [h]; simp [Def.refs]
        obtain ⟨w, hw, hop⟩ := hbuf.out s hsl s' h
        have hws : w = s' := by
          rcases hop with ⟨d, e, hm, h1, h2, _⟩ | ⟨_, h2⟩
          · exfalso
            obtain ⟨h3, h4, h5, h6⟩ := buffersFor_mem.1 ((hmem _).1 hm)
            obtain ⟨_, h7⟩ := chan_dep hP h3
            simp only at h1 h4 h5 h6 h7
            rw [h1] at h7 h4
            have := hread s ⟨by rw [h]; rfl, n, hn, hsn⟩ _ _ h7 h6
            omega
          · exact h2
        subst hws
        have hl := hrun1 s (by omega)
        rw [hw] at hl
        rw [hl c hc]; exact ih s hsl hs' c hc
      | @off s s' x j k h hr ih =>
        intro n hn hsn c hc
        have hsl : s < P.size := by have := hP.refs n hn s hsn; omega
        have hl := hrun1 s (by omega)
        rw [hbuf.same s hsl (by rw [h]; simp) (by rw [h]; simp), h] at hl
        rw [hl c hc]; exact ih s hsl (by rw [h]; simp [Def.refs]) c hc
    have main : ∀ v < P.size, (P.defn v).isNode → ∀ t a, Sem P I v t a →
        ((P.defn v).isConstantInput = true → ∀ c, 0 ≤ c → σ1 v c = a) ∧
        ((P.defn v).isConstantInput = false →
          ((∀ s, P.defn v ≠ .output (some s)) → 0 ≤ t) ∧ (0 ≤ t → σ1 v (T v + lat v + t) = a)) := by
      intro v
      induction v using Nat.strongRecOn with
      | _ v ih =>
      intro hv hnode t a hsem
      have hop : ∀ s ∈ (P.defn v).refs, ∀ t, 0 ≤ t → ∀ a, Sem P I s t a → ∀ ind,
          (∀ x k, Reads P s x k → (P.defn x).isConstantInput = false → (⟨x, v, ind, k⟩ : Chan) ∈ channels P) →
          (∀ c ∈ channels P, (P.defn c.src).isConstantInput = false → c.tgt = v → c.valInd = ind → ∀ x k, Reads P s x k → c = ⟨x, v, ind, k⟩) →
          ∀ w, Operand P.size bs P1 v ind s w → σ1 w (T v + t) = a := by
        intro s hs t ht a hsem ind hch huniq w hw
        have hlt := hP.refs v hv s hs
        have hr := nearestOf_reads hP (v := s) (by omega)
        have hle := hr.le hP (by omega)
        have hx := ih (nearestOf P s).1 (by omega) (by omega) hr.target.1 _ a (sem_reads hr hsem)
        refine operand_value hT I σ1 hrun1 (fun n hn s hs x k hr c hc => hwire s x k hr n hn hs c hc) hmem hv hnode hs
          hch huniq hw ht hr hx.1 ?_
        intro hnc
        obtain ⟨h1, h2⟩ := hx.2 hnc
        have h0 := h1 hr.target.2
        have := hT.nonneg (nearestOf P s).1
        have := hlat.nonneg (nearestOf P s).1
        exact ⟨by omega, h2 h0⟩
      have hl := hrun1 v (by omega)
      cases hsem with
      | stream h ht =>
        rw [hbuf.same v hv (by rw [h]; simp) (by rw [h]; simp), h] at hl
        have hl0 := hlat.io v (by rw [h]; simp)
        have hT0 := hT.input v hv h
        rw [h, hl0, hT0]
        refine ⟨by simp [Def.isConstantInput], fun _ => ⟨fun _ => ht, fun _ => ?_⟩⟩
        simpa using hl t ht
      | scalar h =>
        rw [hbuf.same v hv (by rw [h]; simp) (by rw [h]; simp), h] at hl
        rw [h]; exact ⟨fun _ => hl, by simp [Def.isConstantInput]⟩
      | const h =>
        rw [hbuf.same v hv (by rw [h]; simp) (by rw [h]; simp), h] at hl
        rw [h]; exact ⟨fun _ => hl, by simp [Def.isConstantInput]⟩
      | @output _ s _ _ h hs =>
        obtain ⟨w, hw, hopw⟩ := hbuf.out v hv s h
        rw [hw] at hl; simp only at hl
        have hl0 := hlat.io v (by rw [h]; simp)
        have hsr : s ∈ (P.defn v).refs := by rw [h]; simp [Def.refs]
        have hlt := hP.refs v hv s hsr
        refine ⟨by rw [h]; simp [Def.isConstantInput], fun _ => ⟨fun hx => absurd h (hx s), fun ht => ?_⟩⟩
        have := hT.nonneg v
        rw [hl0, hl _ (by omega), Int.add_zero]
        refine hop s hsr t ht a hs (-1) ?_ ?_ w hopw
        · intro x k hr _
          obtain ⟨rfl, rfl⟩ := Reads.functional hr (nearestOf_reads hP (v := s) (by omega))
          exact mem_channels.2 ⟨hv, by simp [inChans, h]⟩
        · intro c hc _ ht' _ x k hr
          obtain ⟨rfl, rfl⟩ := Reads.functional hr (nearestOf_reads hP (v := s) (by omega))
          have := (mem_channels.1 hc).2
          rw [ht'] at this
          simpa [inChans, h] using this
      | offset h => rw [h] at hnode; simp [Def.isNode] at hnode
      | @node _ args _ _ K h ht ha hf =>
        obtain ⟨args', hw, hlen, hopw⟩ := hbuf.node v hv args h
        rw [hw] at hl; simp only at hl
        refine ⟨by rw [h]; simp [Def.isConstantInput], fun _ => ⟨fun _ => ht, fun _ => ?_⟩⟩
        have := hT.nonneg v
        rw [hl _ (by omega), show T v + lat v + t - lat v = T v + t by omega]
        refine hf _ (by simp [hlen]) ?_
        intro j b hK h2
        have h1 : j < args'.length := by omega
        rw [List.getElem?_map, List.getElem?_eq_getElem h1, Option.map_some]
        congr 1
        have hsr : args[j] ∈ (P.defn v).refs := by rw [h]; simp [Def.refs]
        have hlt := hP.refs v hv _ hsr
        have hj := hsm v hv args h
        refine hop args[j] hsr t ht _ (ha j _ b (List.getElem?_eq_getElem h2) hK) j ?_ ?_ _
          (hopw j _ _ (List.getElem?_eq_getElem h2) (List.getElem?_eq_getElem h1))
        · intro x k hr hcx
          obtain ⟨rfl, rfl⟩ := Reads.functional hr (nearestOf_reads hP (v := args[j]) (by omega))
          refine mem_channels.2 ⟨hv, ?_⟩
          simp only [inChans, h, List.mem_mapIdx]
          refine ⟨j, h2, ?_⟩
          rw [wrap8_small]
          by_contra hge
          rw [hj j _ (by omega) (List.getElem?_eq_getElem h2)] at hcx
          cases hcx
        · intro c hc hcx ht' hi x k hr
          obtain ⟨rfl, rfl⟩ := Reads.functional hr (nearestOf_reads hP (v := args[j]) (by omega))
          have hm := (mem_channels.1 hc).2
          rw [ht'] at hm
          simp only [inChans, h, List.mem_mapIdx] at hm
          obtain ⟨j', hj', rfl⟩ := hm
          simp only at hcx hi
          have hj8 : j' < 128 := by
            by_contra hge
            rw [hj j' _ (by omega) (List.getElem?_eq_getElem hj')] at hcx
            cases hcx
          rw [wrap8_small hj8] at hi
          have : j' = j := by omega
          subst this
          rw [wrap8_small hj8]
    intro v hv hnode t ht a hsem
    have hno : ¬ IsOffset P1 v := by
      rintro ⟨s, k, hd⟩
      have := (hoff1 v (by omega) s k hd).2
      rw [this] at hnode; simp [Def.isNode] at hnode
    rw [← hagree v hno]
    have := hT.nonneg v
    have := hlat.nonneg v
    obtain ⟨h1, h2⟩ := main v hv hnode t a hsem
    cases hcx : (P.defn v).isConstantInput with
    | true => exact h1 hcx _ (by omega)
    | false => exact (h2 hcx).2 ht

end Verif.Sched
