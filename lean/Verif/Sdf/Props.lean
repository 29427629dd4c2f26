import Verif.Sdf.Renumber
import Verif.Flow.Compiled
import Verif.Dfcxx.Fields
/-
C81: the scheduled DFCIR text of a kernel describes the design the tool produces.
-/
namespace Verif.Sdf
open Verif.Dfcxx Verif.Flow Verif.Sched Verif.Text

/-! ### What scheduling leaves in the block -/

theorem eraseOne_offset {X : Prog} {p i s : Nat} {k : Int} (h : (eraseOne X p).defn i = .offset s k) : i ≠ p ∧ ∃ s', X.defn i = .offset s' k := by
  unfold eraseOne at h
  split at h
  · rename_i s0 k0 hp
    simp only at h
    split at h
    · cases h
    · rename_i hne
      refine ⟨hne, ?_⟩
      cases hd : X.defn i <;> rw [hd] at h <;> simp only [Def.subst] at h
      case output o => cases o <;> simp at h
      case offset s1 k1 => cases h; exact ⟨_, rfl⟩
      all_goals cases h
  · rename_i hp
    refine ⟨?_, s, h⟩
    rintro rfl
    exact hp _ _ h

theorem erases_offset : ∀ (l : List Nat) {X : Prog} {i s : Nat} {k : Int}, (l.foldl eraseOne X).defn i = .offset s k → i ∉ l ∧ ∃ s', X.defn i = .offset s' k
  | [], _, _, s, _, h => ⟨by simp, s, h⟩
  | p :: l, X, i, s, k, h => by
    obtain ⟨h1, s', h2⟩ := erases_offset l h
    obtain ⟨h3, h4⟩ := eraseOne_offset h2
    exact ⟨by simp [h1, h3], h4⟩

theorem eraseOne_latency {X : Prog} {p i s : Nat} {k : Int} (h : (eraseOne X p).defn i = .latency s k) : ∃ s', X.defn i = .latency s' k := by
  unfold eraseOne at h
  split at h
  · simp only at h
    split at h
    · cases h
    · cases hd : X.defn i <;> rw [hd] at h <;> simp only [Def.subst] at h
      case output o => cases o <;> simp at h
      case latency s1 k1 => cases h; exact ⟨_, rfl⟩
      all_goals cases h
  · exact ⟨s, h⟩

theorem erases_latency : ∀ (l : List Nat) {X : Prog} {i s : Nat} {k : Int}, (l.foldl eraseOne X).defn i = .latency s k → ∃ s', X.defn i = .latency s' k
  | [], _, _, s, _, h => ⟨s, h⟩
  | p :: l, X, i, s, k, h => by
    obtain ⟨s', h2⟩ := erases_latency l h
    exact eraseOne_latency h2

theorem insertBuffer_latency {X Y : Prog} {c : Sched.Chan} {b : Int} (h : insertBuffer X c b = .ok Y) {i s : Nat} {k : Int}
    (hl : Y.defn i = .latency s k) : k = b ∨ ∃ s', X.defn i = .latency s' k := by
  have key : ∀ (d : Def) (v : Nat), (∀ s n, d ≠ .latency s n) → ((X.set c.tgt d).set X.size (.latency v b)).defn i = .latency s k →
      k = b ∨ ∃ s', X.defn i = .latency s' k := by
    intro d v hd h
    simp only [Prog.set] at h
    split at h
    · cases h; exact .inl rfl
    · split at h
      · exact absurd h (hd _ _)
      · exact .inr ⟨s, h⟩
  unfold insertBuffer at h
  split at h
  · cases h
  · split at h
    · split at h
      · split at h
        · cases h; exact key _ _ (by simp) hl
        · cases h
      · cases h
    · split at h
      · cases h
      · split at h
        · cases h; exact key _ _ (by simp) hl
        · cases h

theorem insertBuffers_latency : ∀ (bs : List (Sched.Chan × Int)) {X Y : Prog}, insertBuffers X bs = .ok Y → ∀ {i s : Nat} {k : Int},
    Y.defn i = .latency s k → (∃ c, (c, k) ∈ bs) ∨ ∃ s', X.defn i = .latency s' k
  | [], X, Y, h, i, s, k, hl => by cases h; exact .inr ⟨s, hl⟩
  | (c, b) :: bs, X, Y, h, i, s, k, hl => by
    simp only [insertBuffers] at h
    cases h1 : insertBuffer X c b with
    | error f => rw [h1] at h; cases h
    | ok Z =>
      rw [h1] at h
      rcases insertBuffers_latency bs h hl with ⟨c', h2⟩ | ⟨s', h2⟩
      · exact .inl ⟨c', by simp [h2]⟩
      · rcases insertBuffer_latency h1 h2 with rfl | h3
        · exact .inl ⟨c, by simp⟩
        · exact .inr h3

theorem applySchedule_facts {P X : Prog} (hP : WF P) (hb : ∀ v, P.size ≤ v → P.defn v = .erased) {bs : List (Sched.Chan × Int)}
    (h : applySchedule P bs = .ok X) :
    (∀ i < P.size, ∀ s k, X.defn i ≠ .offset s k) ∧ ∀ i s k, X.defn i = .latency s k → ∃ c, (c, k) ∈ bs := by
  unfold applySchedule at h
  split at h
  · cases h
  · rename_i Y h1
    cases h
    refine ⟨fun i hi s k he => ?_, fun i s k he => ?_⟩
    · exact (erases_offset _ he).1 (List.mem_range.mpr hi)
    · obtain ⟨s', h2⟩ := erases_latency _ he
      rcases insertBuffers_latency bs h1 h2 with h3 | ⟨s'', h3⟩
      · exact h3
      · by_cases hi : i < P.size
        · exact absurd h3 ((hP.fresh i hi).1 _ _)
        · rw [hb i (by omega)] at h3; cases h3

theorem offsets_keep_dty {V : Nat → NodeV} {order : List Nat} (hc : ∀ n ∈ order, Complete V n) (hk : ∀ n, KindOK (V n).op (V n).kind)
    (hto : TopoOrder V order) (hd : ∀ n ∈ order, DialectOK V n) : ∀ v < (progOf (block V order)).size, ∀ s k,
    (progOf (block V order)).defn v = .offset s k → valueTy (block V order) s = valueTy (block V order) v := by
  intro v hv s k hdf
  rw [progOf_size] at hv
  obtain ⟨hn, hi⟩ := value_is_node hto.nodup hv
  generalize order[v] = n at hn hi
  subst hi
  rw [progOf_defn V hn (hc n hn)] at hdf
  have ho : (V n).op = .OFFSET := by
    unfold defOf at hdf
    cases ho : (V n).op
    case OFFSET => rfl
    case IN => rw [ho] at hdf; by_cases hk : (V n).kind = .stream <;> simp [hk] at hdf
    case MUX => rw [ho] at hdf; cases he : (V n).srcs <;> simp [he] at hdf
    all_goals rw [ho] at hdf; simp at hdf
  obtain ⟨⟨o, hdt⟩, hty⟩ := (hc n hn).offset ho
  obtain ⟨a, ha⟩ := (hc n hn).unary (by simp [ho])
  simp only [defOf, ho, hdt, ha, Def.offset.injEq] at hdf
  obtain ⟨rfl, -⟩ := hdf
  have hao := (srcs_in_order hto hn (s := a) (by simp [ha])).1
  have hks : (V a).kind = .stream := by
    have := hd n hn
    simp only [DialectOK, ho] at this
    exact this a (by simp [ha])
  have hkn : (V n).kind = .stream := by simpa [KindOK, ho] using hk n
  rw [valueTy_at hao, valueTy_at hn, dty_stream (hc a hao) (hd a hao) hks, dty_stream (hc n hn) (hd n hn) hkn, hty a (by simp [ha])]

theorem block_ready {V : Nat → NodeV} {order : List Nat} (hto : TopoOrder V order) (hc : ∀ n ∈ order, Complete V n)
    (hk : ∀ n, KindOK (V n).op (V n).kind) (hd : ∀ n ∈ order, DialectOK V n) (hf : ∀ n ∈ order, FieldsFit (V n))
    (hm : ∀ n ∈ order, (V n).op = .MUX → 2 ≤ (V n).srcs.length) (ho : OffsetsFit V order) {bs : List (Sched.Chan × Int)}
    (hbs : ∀ p ∈ bs, p.1 ∈ channels (progOf (block V order))) (hfit : ∀ p ∈ bs, p.2 < 2 ^ 31) {X : Prog}
    (h : applySchedule (progOf (block V order)) bs = .ok X) {att : Nat → Int} (hatt : ∀ v, -2 ^ 31 ≤ att v ∧ att v < 2 ^ 31) :
    Ready (block V order) X (schedLines (block V order) bs X) att := by
  have hP := block_wf hto hc ho
  obtain ⟨hi, -⟩ := applySchedule_tyInv (base := valueTy (block V order)) hP (progOf_beyond _) (offsets_keep_dty hc hk hto hd) hbs h
  obtain ⟨f1, f2⟩ := applySchedule_facts hP (progOf_beyond _) h
  refine ⟨block_progOK hto hc hk hd hf hm, hi, schedLines_inv hto hc ho hbs h, ?_, hatt, ?_⟩
  · intro v hv s k he
    by_cases hlt : v < (progOf (block V order)).size
    · exact f1 v hlt s k he
    · obtain ⟨s', n, e, -⟩ := hi.fresh v (by omega) hv
      rw [he] at e; cases e
  · intro v s n he
    obtain ⟨c, hcb⟩ := f2 v s n he
    have hu := hfit _ hcb
    have hpos : 0 < n := by
      by_cases hv : v < X.size
      · by_cases hlt : v < (progOf (block V order)).size
        · have hdi := hi.defs v hlt
          unfold DefInv at hdi
          cases hd0 : (progOf (block V order)).defn v with
          | latency s' n' => exact absurd hd0 ((hP.fresh v hlt).1 _ _)
          | output o => rw [hd0] at hdi; cases o <;> simp only at hdi <;> first | (rw [he] at hdi; cases hdi; done) | (obtain ⟨_, e, -⟩ := hdi; rw [he] at e; cases e)
          | node args => rw [hd0] at hdi; obtain ⟨_, e, -⟩ := hdi; rw [he] at e; cases e
          | offset s' k => rw [hd0] at hdi; rcases hdi with ⟨_, e, -⟩ | e <;> (rw [he] at e; cases e)
          | _ => rw [hd0] at hdi; simp only at hdi; rw [he] at hdi; cases hdi
        · obtain ⟨s', n', e, hp⟩ := hi.fresh v (by omega) hv
          rw [he] at e; cases e; exact hp
      · exact absurd he (hi.beyond v (by omega) s n)
    constructor
    · have : (-2 ^ 31 : Int) ≤ 0 := by decide
      omega
    · exact hu

/-! ### Latencies of configuration files fit -/

theorem toU16_lt (z : Int) : Config.toU16 z < 65536 := by
  unfold Config.toU16
  exact (BitVec.ofInt 16 z).isLt

theorem unitLatency_lt (file : Option Config.JsonDoc) (k : Config.Kind) (b : Bool) : Config.unitLatency file k b < 65536 := by
  have put : ∀ (m : Config.LatMap) o n, n < 65536 → (∀ o' l, m o' = some l → l < 65536) → ∀ o' l, m.put o n o' = some l → l < 65536 := by
    intro m o n hn hm o' l h
    unfold Config.LatMap.put at h
    split at h
    · cases h; exact hn
    · exact hm o' l h
  have fold : ∀ (fs : List (String × Int)) (m : Config.LatMap), (∀ o' l, m o' = some l → l < 65536) →
      ∀ o' l, fs.foldl (fun m kv => m.put (Config.convertFieldToEnum kv.1) (Config.toU16 kv.2)) m o' = some l → l < 65536 := by
    intro fs
    induction fs with
    | nil => exact fun m hm => hm
    | cons f fs ih => exact fun m hm => ih _ (put m _ _ (toU16_lt _) hm)
  have hall : ∀ o' l, Config.processorConfig (Config.parseLatencyConfig file) o' = some l → l < 65536 := by
    refine put _ _ _ (by decide) ?_
    cases file with
    | none => intro o' l h; cases h
    | some doc =>
      obtain ⟨top, fields⟩ := doc
      cases fields with
      | none => intro o' l h; simp [Config.parseLatencyConfig, Config.parseInternalOpsConfig] at h
      | some fields =>
        intro o' l h
        simp only [Config.parseLatencyConfig, Config.parseInternalOpsConfig] at h
        exact fold fields (fun _ => none) (by intro o' l h; cases h) o' l h
  unfold Config.unitLatency Config.applyConfig
  split
  · split
    · rename_i l h
      exact hall _ _ h
    · decide
  · decide

theorem latOf_fits (file : Option Config.JsonDoc) (ops : List OpInfo) (v : Nat) : -2 ^ 31 ≤ latOf file ops v ∧ latOf file ops v < 2 ^ 31 := by
  unfold latOf
  have hz : (-2 ^ 31 : Int) ≤ 0 ∧ (0 : Int) < 2 ^ 31 := by decide
  split
  · split
    · rename_i o _ _ k _
      have := unitLatency_lt file k (isFloatTy o.ty)
      constructor
      · have := Int.natCast_nonneg (Config.unitLatency file k (isFloatTy o.ty)); omega
      · norm_num; omega
    · exact hz
  · exact hz

theorem latOf_pos (file : Option Config.JsonDoc) (ops : List OpInfo) (v : Nat) : latOf file ops v = max 0 (latOf file ops v) := by
  have : 0 ≤ latOf file ops v := by
    unfold latOf
    split
    · split
      · exact Int.natCast_nonneg _
      · exact Int.le_refl _
    · exact Int.le_refl _
  omega

/-! ### Specification -/

/-- What a scheduling pass may make of the finished kernel `g`: the block `prog` that was built, the buffers `bs` in the order of insertion, the result `X`
and the latency attributes `att`.  The pass is ASAP or linear programming with a latency configuration, or pipelining of a kernel without offsets into any
number of stages (`conf`: does it read the configuration). -/
inductive Pass (w : World) (g : KGraph) (file : Option Config.JsonDoc) : Bool → List DStmt → List (Sched.Chan × Int) → Prog → (Nat → Int) → Prop
  | asap {G : TopSort.Graph Nat} {order : List Nat} {prog : List DStmt} {bs : List (Sched.Chan × Int)} {X : Prog} :
      Enumeration w g G → TopSort.topSort G = .ok order → buildBody w.view order = .ok prog →
      bs.Perm (buffersFor (progOf prog) (latOf file (opsOf prog)) (asap (progOf prog) (latOf file (opsOf prog))).time) →
      applySchedule (progOf prog) bs = .ok X → Pass w g file true prog bs X (latOf file (opsOf prog))
  | lp {G : TopSort.Graph Nat} {order : List Nat} {prog : List DStmt} {x : Nat → ℚ} {bs : List (Sched.Chan × Int)} {X : Prog} :
      Enumeration w g G → TopSort.topSort G = .ok order → buildBody w.view order = .ok prog →
      Optimal (lpBuild (progOf prog) (latOf file (opsOf prog))) x → Extreme (lpBuild (progOf prog) (latOf file (opsOf prog))) x →
      bs.Perm (lpBuffers (progOf prog) (lpBuild (progOf prog) (latOf file (opsOf prog))) (.solved x)) →
      applySchedule (progOf prog) bs = .ok X → Pass w g file true prog bs X (latOf file (opsOf prog))
  | comb0 {G : TopSort.Graph Nat} {order : List Nat} {prog : List DStmt} :
      Enumeration w g G → TopSort.topSort G = .ok order → buildBody w.view order = .ok prog → (∀ n ∈ g.nodes, (w.view n).op ≠ .OFFSET) →
      Pass w g file false prog [] (progOf prog) (fun _ => -1)
  | comb {G : TopSort.Graph Nat} {order : List Nat} {prog : List DStmt} {A : FloatArith} {stages : Nat} {bs bs' : List (Sched.Chan × Int)} {X : Prog} :
      Enumeration w g G → TopSort.topSort G = .ok order → buildBody w.view order = .ok prog → (∀ n ∈ g.nodes, (w.view n).op ≠ .OFFSET) →
      0 < stages → stages < 2 ^ 31 → combBuffers A stages (progOf prog) = .ok bs' → bs.Perm bs' → insertBuffers (progOf prog) bs = .ok X →
      Pass w g file false prog bs X (fun _ => -1)

/-! ### Proofs -/

section
variable {F : FloatOps} {w : World} {g : KGraph} {file : Option Config.JsonDoc} {conf : Bool} {prog : List DStmt} {bs : List (Sched.Chan × Int)} {X : Prog} {att : Nat → Int}

theorem produced_dialect {V : Nat → NodeV} {L : Nat → Nat} {nodes : List Nat} (H : HwHandled V L nodes) : ∀ n ∈ nodes, DialectOK V n := by
  intro n hn
  have hs := (H.prod n hn).2
  unfold DialectOK
  cases ho : (V n).op <;> rw [ho] at hs <;> simp only <;> try trivial
  · exact fun c alts he => (hs c alts he).1
  · exact fun s hm => ⟨(hs.2.2 s hm).2, (hs.2.2 s hm).1⟩

/-- What the back end handles fits in the fields. -/
theorem produced_fields (h : Hist F Proper World.init w) {L : Nat → Nat} {nodes : List Nat} (H : HwHandled w.view L nodes) :
    ∀ n ∈ nodes, FieldsFit (w.view n) := by
  intro n hn
  have ht : SizeOK (w.view n).ty := (H.prod n hn).1
  have hd : DataOK (w.view n).data := hist_data h n
  refine ⟨?_, ?_⟩
  · obtain ⟨h1, h2, h3⟩ := ht
    cases e : (w.view n).ty with
    | fixed s i f => rw [e] at h2; simp only [width] at h2 ⊢; omega
    | float a b => exact h3 a b e
    | rawBits b => rw [e] at h2; exact h2
  · cases e : (w.view n).data with
    | offset o =>
      obtain ⟨h1, h2⟩ := H.offs n hn o e
      simp only
      norm_num at h1 h2 ⊢
      omega
    | bitShift k => rw [e] at hd; exact hd
    | bitsRange l r => rw [e] at hd; exact hd
    | _ => trivial

theorem combKernel_of {order : List Nat} (hto : TopoOrder w.view order) (hp : order.Perm g.nodes) (hc : ∀ n ∈ order, Complete w.view n)
    (hof : ∀ n ∈ g.nodes, (w.view n).op ≠ .OFFSET) (hr : ∀ n ∈ g.nodes, ∀ s ∈ (w.view n).srcs, (w.view s).op ≠ .OUT) :
    CombKernel (progOf (block w.view order)) := by
  refine ⟨?_, ?_⟩
  · intro i hi s k hd
    rw [progOf_size] at hi
    obtain ⟨hn, he⟩ := value_is_node hto.nodup hi
    generalize order[i] = n at hn he
    subst he
    rw [progOf_defn _ hn (hc n hn)] at hd
    unfold defOf at hd
    cases ho : (w.view n).op
    case OFFSET => exact hof n (hp.mem_iff.mp hn) ho
    case IN => rw [ho] at hd; by_cases hk : (w.view n).kind = .stream <;> simp [hk] at hd
    case MUX => rw [ho] at hd; cases he : (w.view n).srcs <;> simp [he] at hd
    all_goals rw [ho] at hd; simp at hd
  · intro i hi r hr' s hd
    exact block_readOutputs hto hc (fun n hn => hr n (hp.mem_iff.mp hn)) (o := r) ⟨by rw [hd]; rfl, i, hi, hr'⟩

open Classical in
/-- Some iteration order of the buffer map. -/
noncomputable def orderFor (bs' bs : List (Sched.Chan × Int)) (l : List (Sched.Chan × Int)) : List (Sched.Chan × Int) := if l = bs' then bs else l

theorem orderFor_perm {bs' : List (Sched.Chan × Int)} (h : bs.Perm bs') (l : List (Sched.Chan × Int)) : (orderFor bs' bs l).Perm l := by
  unfold orderFor
  split
  · rename_i e; rw [e]; exact h
  · exact .refl _

/-- What a pass does to the block. -/
theorem Pass.applied (h : Hist F Proper World.init w) (hf : Finished w g)
    (ho : ∀ n ∈ g.nodes, ∀ k, (w.view n).data = .offset k → -(2 ^ 31 : Int) ≤ k ∧ k < 2 ^ 31)
    (hr : ∀ n ∈ g.nodes, ∀ s ∈ (w.view n).srcs, (w.view s).op ≠ .OUT) (hp : Pass w g file conf prog bs X att) :
    ∃ order, order.Perm g.nodes ∧ TopoOrder w.view order ∧ (∀ n ∈ order, Complete w.view n) ∧ prog = block w.view order ∧
      (∀ p ∈ bs, p.1 ∈ channels (progOf prog)) ∧ applySchedule (progOf prog) bs = .ok X := by
  cases hp with
  | @asap G order _ _ _ he ht hb hbs ha =>
    obtain ⟨order', h1, h2, h3, h4, -⟩ := finished_kernel_is_processable h hf he
    rw [ht] at h1; cases h1
    rw [buildBody_exact w.view order h3 h4] at hb
    have hb' : prog = block w.view order := (Except.ok.inj hb).symm
    subst hb'
    exact ⟨order, h2, h3, h4, rfl, fun p hp => (buffersFor_mem.1 (hbs.mem_iff.1 hp)).1, ha⟩
  | @lp G order _ x _ _ he ht hb hopt hext hbs ha =>
    obtain ⟨order', h1, h2, h3, h4, -⟩ := finished_kernel_is_processable h hf he
    rw [ht] at h1; cases h1
    rw [buildBody_exact w.view order h3 h4] at hb
    have hb' : prog = block w.view order := (Except.ok.inj hb).symm
    subst hb'
    have hP := block_wf h3 h4 (fun n hn => ho n (h2.mem_iff.mp hn))
    have hbe := lpBuffers_eq hP hopt.1 (lp_vertex_integral hP hext)
    refine ⟨order, h2, h3, h4, rfl, fun p hp => ?_, ha⟩
    have := hbs.mem_iff.1 hp
    rw [hbe] at this
    exact (buffersFor_mem.1 this).1
  | @comb0 G order _ he ht hb hof =>
    obtain ⟨order', h1, h2, h3, h4, -⟩ := finished_kernel_is_processable h hf he
    rw [ht] at h1; cases h1
    rw [buildBody_exact w.view order h3 h4] at hb
    have hb' : prog = block w.view order := (Except.ok.inj hb).symm
    subst hb'
    have hK := combKernel_of h3 h2 h4 hof hr
    refine ⟨order, h2, h3, h4, rfl, by simp, ?_⟩
    simp only [applySchedule, insertBuffers]
    rw [eraseOffsets_id hK.noOffset _ (Nat.le_refl _)]
  | @comb G order _ A stages _ bs' _ he ht hb hof hs hst hcb hbs ha =>
    obtain ⟨order', h1, h2, h3, h4, -⟩ := finished_kernel_is_processable h hf he
    rw [ht] at h1; cases h1
    rw [buildBody_exact w.view order h3 h4] at hb
    have hb' : prog = block w.view order := (Except.ok.inj hb).symm
    subst hb'
    have hP := block_wf h3 h4 (fun n hn => ho n (h2.mem_iff.mp hn))
    have hK := combKernel_of h3 h2 h4 hof hr
    have hno := insertBuffers_noOffset _ ha hK.noOffset
    obtain ⟨e1, hoff⟩ := combChannels_total hP hK
    have hbs2 : ∀ p ∈ bs, p.1 ∈ channels (progOf (block w.view order)) := by
      intro p hp
      have hp' := hbs.mem_iff.1 hp
      unfold combBuffers at hcb
      rw [e1] at hcb
      simp only at hcb
      split at hcb
      · cases hcb
      · cases hcb
        unfold calculateFIFOs at hp'
        obtain ⟨c, hc, e⟩ := List.mem_filterMap.mp hp'
        simp only at e
        by_cases hh : p.1 = c
        · rw [hh]; exact hc
        · exfalso
          repeat' split at e
          all_goals first
            | (cases e; done)
            | (have := congrArg (fun o => o.map Prod.fst) e; simp at this; exact hh this.symm)
    have hsz : (progOf (block w.view order)).size ≤ X.size :=
      (insertBuffers_ranked _ hP.ranked (fun p hp' => (chan_lt hP (hbs2 p hp')).2) ha).2
    refine ⟨order, h2, h3, h4, rfl, hbs2, ?_⟩
    simp only [applySchedule, ha]
    rw [eraseOffsets_id hno _ hsz]

/-- The latencies that count. -/
def posLat (att : Nat → Int) (v : Nat) : Int := max 0 (att v)

theorem posLat_latOf (file : Option Config.JsonDoc) (ops : List OpInfo) : posLat (latOf file ops) = latOf file ops := by
  funext v; exact (latOf_pos file ops v).symm

theorem posLat_unset : posLat (fun _ => -1) = fun _ => 0 := rfl

theorem SchedInv.blockOrder {X : Prog} {ls : List Line} (h : SchedInv X ls) : BlockOrder X (fullOrder X (valsOf ls)) := by
  refine ⟨List.nodup_append.mpr ⟨h.nodup, List.nodup_range.filter _, ?_⟩, fun v => ?_⟩
  · intro a ha b hb e
    subst e
    exact ((h.vals a).mp ha).2 (by simpa using (List.mem_filter.mp hb).2)
  · unfold fullOrder
    rw [List.mem_append, h.vals, List.mem_filter, List.mem_range]
    by_cases e : X.defn v = .erased <;> simp [e]

/-- The latencies of the operators: those of the configuration, or none. -/
def passLat (file : Option Config.JsonDoc) (conf : Bool) (V : Nat → NodeV) (n : Nat) : Nat := if conf then nodeLatency file (V n) else 0

/-- The design the tool makes of the scheduled block computes the streams of the kernel. -/
theorem Pass.computes (h : Hist F Proper World.init w) (hf : Finished w g) (H : HwHandled w.view (passLat file conf w.view) g.nodes)
    (hp : Pass w g file conf prog bs X att) (hsg : SignsByWidth w.view g.nodes ∨ NoMixedBuffers (opTy (opsOf prog)) X) {blk : List Nat}
    (hblk : BlockOrder X blk) :
    HwComputes w.view g.nodes (circuitOf (opsOf prog) X (posLat att) blk) X.size := by
  have elat : posLat (latOf file (opsOf prog)) = latOf file (opsOf prog) := by
    funext v; exact (latOf_pos file (opsOf prog) v).symm
  have ez : posLat (fun _ => -1) = fun _ => 0 := by funext v; rfl
  cases hp with
  | asap he ht hb hbs ha =>
    obtain ⟨order', prog', h1, h2, h3⟩ := asap_compile_hw h hf he file H
    rw [ht] at h1; cases h1
    rw [hb] at h2; cases h2
    obtain ⟨X', h4, h5⟩ := h3 _ hbs
    rw [ha] at h4; cases h4
    rw [elat]
    exact h5 _ hblk hsg
  | lp he ht hb hopt hext hbs ha =>
    obtain ⟨order', prog', h1, h2, h3⟩ := lp_compile_hw h hf he file H
    rw [ht] at h1; cases h1
    rw [hb] at h2; cases h2
    obtain ⟨r, h4, h5⟩ := h3 _ hopt hext _ (orderFor_perm hbs)
    unfold lpRun at h4
    rw [show ∀ l : List (Sched.Chan × Int), orderFor l bs l = bs from fun l => by simp [orderFor], ha] at h4
    cases h4
    rw [elat]
    exact h5 _ hblk hsg
  | comb0 he ht hb hof =>
    obtain ⟨order', prog', h1, h2, h3⟩ := comb_compile_hw h hf he H hof
    rw [ht] at h1; cases h1
    rw [hb] at h2; cases h2
    rw [ez]
    exact h3 ⟨Nat, id, fun a _ => a, fun a _ => a, fun a _ => a, fun _ _ => false, 0⟩ 0 (by decide) id (fun _ => .refl _) _ (by simp [combPipeline]) _ hblk (.inl rfl)
  | @comb _ _ _ A stages _ _ _ he ht hb hof hs hst hcb hbs ha =>
    obtain ⟨order', prog', h1, h2, h3⟩ := comb_compile_hw h hf he H hof
    rw [ht] at h1; cases h1
    rw [hb] at h2; cases h2
    rw [ez]
    refine h3 A stages hst _ (orderFor_perm hbs) _ ?_ _ hblk (.inr hsg)
    unfold combPipeline
    rw [if_neg (by omega), hcb]
    simp only
    rw [show ∀ l : List (Sched.Chan × Int), orderFor l bs l = bs from fun l => by simp [orderFor]]
    exact ha

theorem Pass.atts (hp : Pass w g file conf prog bs X att) : ∀ v, -2 ^ 31 ≤ att v ∧ att v < 2 ^ 31 := by
  have hz : (-2 ^ 31 : Int) ≤ -1 ∧ (-1 : Int) < 2 ^ 31 := by decide
  cases hp with
  | asap => exact latOf_fits _ _
  | lp => exact latOf_fits _ _
  | comb0 => exact fun _ => hz
  | comb => exact fun _ => hz

/-- **C81.** What `--out-scheduled-dfcir` writes for a finished kernel, whichever pass scheduled it: the text exists and is well formed, reading it back and
converting it to FIRRTL succeeds, and gives the very circuit the tool makes of the scheduled block, with the values numbered as in the text. -/
theorem scheduled_text_same (h : Hist F Proper World.init w) (hf : Finished w g)
    (hd : ∀ n ∈ g.nodes, DialectOK w.view n) (hff : ∀ n ∈ g.nodes, FieldsFit (w.view n))
    (ho : ∀ n ∈ g.nodes, ∀ k, (w.view n).data = .offset k → -(2 ^ 31 : Int) ≤ k ∧ k < 2 ^ 31)
    (hr : ∀ n ∈ g.nodes, ∀ s ∈ (w.view n).srcs, (w.view s).op ≠ .OUT) (hp : Pass w g file conf prog bs X att) (hfit : ∀ p ∈ bs, p.2 < 2 ^ 31)
    (name : String) {pick : IntAttr → IntAttr → IntAttr} (hpk : ∀ a, pick a a = a) :
    ∃ f, schedFile name prog bs X att = some f ∧ FileOK f ∧ parse pick (print f) = some f ∧
      ∃ cells size, convertText pick (print f) = some (cells, size) ∧ size = (valsOf (schedLines prog bs X)).length ∧
        BlockOrder X (fullOrder X (valsOf (schedLines prog bs X))) ∧
        ∀ v ∈ valsOf (schedLines prog bs X), cells (numIn (schedLines prog bs X) v) =
          mapCell (numIn (schedLines prog bs X)) (circuitOf (opsOf prog) X (posLat att) (fullOrder X (valsOf (schedLines prog bs X))) v) := by
  obtain ⟨order, h2, h3, h4, rfl, hbs, ha⟩ := hp.applied h hf ho hr
  have R := block_ready h3 h4 (fun n => hist_kinds h n) (fun n hn => hd n (h2.mem_iff.mp hn)) (fun n hn => hff n (h2.mem_iff.mp hn))
    (fun n hn ho => finished_mux h hf (h2.mem_iff.mp hn) ho) (fun n hn => ho n (h2.mem_iff.mp hn)) hbs hfit ha hp.atts
  obtain ⟨body, e1, e2, e3⟩ := R.text name hpk
  have hren := R.renumbered (lat := posLat att) fun v => rfl
  refine ⟨⟨nameChars name, body⟩, by simp [schedFile, e1], e2, print_parse hpk e2, _, _, e3, hren.size, hren.blockOrder, fun v hv => hren.cell hv⟩

/-- **C81, whatever the design computes.** If the design made of the scheduled block computes the streams of the kernel, so does the design made from the
text. -/
theorem scheduled_text_transports (h : Hist F Proper World.init w) (hf : Finished w g)
    (hd : ∀ n ∈ g.nodes, DialectOK w.view n) (hff : ∀ n ∈ g.nodes, FieldsFit (w.view n))
    (ho : ∀ n ∈ g.nodes, ∀ k, (w.view n).data = .offset k → -(2 ^ 31 : Int) ≤ k ∧ k < 2 ^ 31)
    (hr : ∀ n ∈ g.nodes, ∀ s ∈ (w.view n).srcs, (w.view s).op ≠ .OUT) (hp : Pass w g file conf prog bs X att) (hfit : ∀ p ∈ bs, p.2 < 2 ^ 31)
    (name : String) {pick : IntAttr → IntAttr → IntAttr} (hpk : ∀ a, pick a a = a) :
    ∃ txt cells size, schedText name prog bs X att = some txt ∧ convertText pick txt = some (cells, size) ∧
      (HwComputes w.view g.nodes (circuitOf (opsOf prog) X (posLat att) (fullOrder X (valsOf (schedLines prog bs X)))) X.size →
        HwComputes w.view g.nodes cells size) := by
  obtain ⟨order, h2, h3, h4, rfl, hbs, ha⟩ := hp.applied h hf ho hr
  have R := block_ready h3 h4 (fun n => hist_kinds h n) (fun n hn => hd n (h2.mem_iff.mp hn)) (fun n hn => hff n (h2.mem_iff.mp hn))
    (fun n hn ho => finished_mux h hf (h2.mem_iff.mp hn) ho) (fun n hn => ho n (h2.mem_iff.mp hn)) hbs hfit ha hp.atts
  obtain ⟨body, e1, e2, e3⟩ := R.text name hpk
  have hren := R.renumbered (lat := posLat att) fun v => rfl
  exact ⟨_, _, _, by simp [schedText, schedFile, e1], e3, hren.computes⟩

/-- **C81, the values.** ... and the design made from the text computes the streams of the kernel. -/
theorem scheduled_text_computes (h : Hist F Proper World.init w) (hf : Finished w g) (H : HwHandled w.view (passLat file conf w.view) g.nodes)
    (hp : Pass w g file conf prog bs X att) (hsg : SignsByWidth w.view g.nodes ∨ NoMixedBuffers (opTy (opsOf prog)) X) (hfit : ∀ p ∈ bs, p.2 < 2 ^ 31)
    (name : String) {pick : IntAttr → IntAttr → IntAttr} (hpk : ∀ a, pick a a = a) :
    ∃ txt cells size, schedText name prog bs X att = some txt ∧ convertText pick txt = some (cells, size) ∧ HwComputes w.view g.nodes cells size := by
  obtain ⟨order, h2, h3, h4, rfl, hbs, ha⟩ := hp.applied h hf H.offs H.reads
  have R := block_ready h3 h4 (fun n => hist_kinds h n) (fun n hn => produced_dialect H n (h2.mem_iff.mp hn)) (fun n hn => produced_fields h H n (h2.mem_iff.mp hn))
    (fun n hn ho => finished_mux h hf (h2.mem_iff.mp hn) ho) (fun n hn => H.offs n (h2.mem_iff.mp hn)) hbs hfit ha hp.atts
  obtain ⟨body, e1, e2, e3⟩ := R.text name hpk
  have hren := R.renumbered (lat := posLat att) fun v => rfl
  exact ⟨_, _, _, by simp [schedText, schedFile, e1], e3, hren.computes (hp.computes h hf H hsg hren.blockOrder)⟩

end
end Verif.Sdf
