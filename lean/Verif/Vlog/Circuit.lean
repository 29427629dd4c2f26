import Verif.Vlog.LibName
import Verif.Flow.Compiled
import Verif.Flow.Units
/-
C80: the circuit of a kernel together with the text of the generated library.
-/
namespace Verif.Vlog
open Verif.Hw Verif.Flow Verif.Dfcxx Verif.Sched

/-! ### The modules of a circuit -/

/-- The external modules of the circuit (DFCIRToFIRRTLPass.cpp:404-483): found or created in the order `blk` of the block. -/
def modulesOf (ops : List OpInfo) (X : Prog) (lat : Nat → Int) (blk : List Nat) : List Module :=
  (convertAll [] (blk.filterMap (hwOpOf ops X lat))).1

theorem hwOps_eq (ops : List OpInfo) (X : Prog) (lat : Nat → Int) (blk : List Nat) :
    ((blk.filterMap fun v => (hwOpOf ops X lat v).map fun o => (v, o)).map Prod.snd) = blk.filterMap (hwOpOf ops X lat) := by
  rw [List.map_filterMap]
  congr 1
  funext v
  cases hwOpOf ops X lat v <;> rfl

theorem cell_inst {ops : List OpInfo} {X : Prog} {mods : List (Nat × Module)} {v : Nat} {m : Module} {args : List Nat}
    (h : cellOf ops X mods v = .inst m args) : mods.lookup v = some m := by
  unfold cellOf at h
  split at h
  · split at h
    · rename_i m' hm; cases h; exact hm
    · cases h
  · split at h <;> cases h
  · split at h <;> cases h
  · split at h <;> cases h
  · split at h <;> cases h
  · split at h
    · cases h
    · split at h
      case h_10 =>
        split at h
        · rename_i m' _ hm; cases h; exact hm
        · cases h
      all_goals cases h
  · cases h

theorem cell_of_op {ops : List OpInfo} {X : Prog} {lat : Nat → Int} {mods : List (Nat × Module)} {v : Nat} {m : Module} {o : HwOp}
    (ho : hwOpOf ops X lat v = some o) (hm : mods.lookup v = some m) : ∃ args, cellOf ops X mods v = .inst m args := by
  unfold hwOpOf at ho
  split at ho
  · rename_i s n hd
    exact ⟨[s], by unfold cellOf; rw [hd]; simp only [hm]⟩
  · rename_i args hd
    split at ho
    · rename_i oi hoi
      cases hk : unitOf oi.kind with
      | none => rw [hk] at ho; cases ho
      | some k => exact ⟨args, cell_unit hd hoi hk hm⟩
    · cases ho
  · cases ho

theorem mem_of_lookup_nat {α : Type} {n : Nat} {v : α} : ∀ {l : List (Nat × α)}, l.lookup n = some v → (n, v) ∈ l
  | [], h => by simp [List.lookup] at h
  | (k, u) :: l, h => by
    rw [List.lookup] at h
    cases e : n == k with
    | true => rw [e] at h; cases h; rw [beq_iff_eq] at e; subst e; exact List.mem_cons_self
    | false => rw [e] at h; exact List.mem_cons_of_mem _ (mem_of_lookup_nat h)

/-- The modules of the circuit are those its instances refer to. -/
theorem circuit_modules (ops : List OpInfo) (X : Prog) (lat : Nat → Int) {blk : List Nat} (hblk : BlockOrder X blk) :
    ModulesOf (circuitOf ops X lat blk) X.size (modulesOf ops X lat blk) := by
  obtain ⟨h1, h2⟩ := convertAll_spec (blk.filterMap (hwOpOf ops X lat)) [] (by simp)
  refine ⟨h1, fun m => ?_⟩
  unfold modulesOf
  rw [h2 m]
  simp only [List.not_mem_nil, false_or]
  let l := blk.filterMap fun v => (hwOpOf ops X lat v).map fun o => (v, o)
  have hl : l.map Prod.snd = blk.filterMap (hwOpOf ops X lat) := hwOps_eq ops X lat blk
  have hlen := (convertAll_from (fun _ => True) (blk.filterMap (hwOpOf ops X lat)) [] (by simp) (by simp)).1
  have hinst : instances ops X lat blk = (l.map Prod.fst).zip (convertAll [] (blk.filterMap (hwOpOf ops X lat))).2 := by
    rw [← hl]; rfl
  constructor
  · intro hm
    obtain ⟨i, hi⟩ := List.mem_iff_getElem?.mp hm
    have hil : i < l.length := by
      obtain ⟨hlt, -⟩ := List.getElem?_eq_some_iff.mp hi
      rw [hlen, ← hl, List.length_map] at hlt
      exact hlt
    have hv : l[i]? = some l[i] := List.getElem?_eq_getElem hil
    obtain ⟨v, hvb, he⟩ := List.mem_filterMap.mp (List.getElem_mem hil)
    cases hq : hwOpOf ops X lat v with
    | none => rw [hq] at he; cases he
    | some o =>
      rw [hq, Option.map_some] at he
      have he := Option.some.inj he
      have hlk : (instances ops X lat blk).lookup v = some m := by
        rw [hinst]
        refine lookup_zip _ _ i v m ?_ (by rw [List.getElem?_map, hv, ← he]; rfl) hi
        have : (l.map Prod.fst).Sublist blk := by
          have e : l.map Prod.fst = blk.filter (fun v => (hwOpOf ops X lat v).isSome) := by
            simp only [l, List.map_filterMap]
            rw [← List.filterMap_eq_filter]
            congr 1
            funext v
            cases hq : hwOpOf ops X lat v <;> simp [Option.guard, hq]
          rw [e]; exact List.filter_sublist
        exact this.nodup hblk.1
      exact ⟨v, (hblk.2 v).mp hvb, cell_of_op hq hlk⟩
  · rintro ⟨v, _, args, hc⟩
    have hlk := mem_of_lookup_nat (cell_inst hc)
    rw [hinst] at hlk
    exact (List.of_mem_zip hlk).2

/-! ### Circuit and library -/

/-- If all modules of the circuit are as the generator expects them, the text of the library is read as a list of modules without duplicates, and the runs
of the circuit with these modules are the runs of the circuit. -/
theorem library_runs {cells : Nat → Cell} {size : Nat} {ms : List Module} (hm : ModulesOf cells size ms) (hfit : ∀ m ∈ ms, Fit m) {time : List Char}
    (ht : '\n' ∉ time) : ∃ as, read (libText ms time) = some as ∧ (as.map Mod.name).Nodup ∧ ∀ port oob σ,
      LibRun as cells size port oob σ ↔ ∃ reg, CircuitRun cells size port oob reg σ := by
  refine ⟨libMods ms, lib_read (fun m h => (hfit m h).toLibOK) ht, lib_names hm.1, fun port oob σ => ?_⟩
  have hast : ∀ m ∈ ms, ∀ a, astOf m = some a → a ∈ libMods ms := by
    intro m h a ha
    rw [mem_sections]
    refine ⟨m, h, ?_, ha⟩
    intro hn
    have hd : moduleDict m = none := by
      unfold sectionOf at hn
      cases hq : moduleDict m with
      | none => rfl
      | some p => rw [hq] at hn; cases hn
    unfold moduleDict at hd
    unfold astOf at ha
    split at ha
    · rename_i hs; rw [hs] at hd; simp at hd
    · rename_i hs hargs; rw [hs, hargs] at hd; simp at hd
    · rename_i hs hargs; rw [hs, hargs] at hd; simp at hd
    · cases ha
  have huniq : ∀ a ∈ libMods ms, ∀ m ∈ ms, a.name = String.ofList m.name → astOf m = some a := by
    intro a ha m h e
    obtain ⟨m', h', -, ha'⟩ := (mem_sections ms a).mp ha
    rw [ast_name ha'] at e
    have e' : m'.name = m.name := by have := congrArg String.toList e; simpa using this
    have := List.inj_on_of_nodup_map hm.1 h' h e'
    subst this
    exact ha'
  have hstep : ∀ v < size, cells v ≠ .gone → ((∀ m args, cells v = .inst m args → ∃ a ∈ libMods ms, a.name = String.ofList m.name ∧
      InstRun a m (args.map σ) (σ v)) ∧ ((∀ m args, cells v ≠ .inst m args) → ∀ t, cellOut port oob (fun _ => 0) (cells v) σ t = some (σ v t)) ↔
      ∃ reg, ∀ t, cellOut port oob reg (cells v) σ t = some (σ v t)) := by
    intro v hv hg
    by_cases hi : ∃ m args, cells v = .inst m args
    · obtain ⟨m, args, hc⟩ := hi
      have hmem : m ∈ ms := (hm.2 m).mpr ⟨v, hv, args, hc⟩
      have key := inst_iff (hfit m hmem) (args.map σ) (σ v)
      rw [hc]
      simp only [cellOut]
      rw [← key]
      constructor
      · rintro ⟨h1, -⟩
        obtain ⟨a, ha, hn, hr⟩ := h1 m args rfl
        exact ⟨a, huniq a ha m hmem hn, hr⟩
      · rintro ⟨a, ha, hr⟩
        refine ⟨fun m' args' e => ?_, fun h => absurd rfl (h m args)⟩
        cases e
        exact ⟨a, hast m hmem a ha, ast_name ha, hr⟩
    · have hi' : ∀ m args, cells v ≠ .inst m args := fun m args e => hi ⟨m, args, e⟩
      have hreg : ∀ reg t, cellOut port oob reg (cells v) σ t = cellOut port oob (fun _ => 0) (cells v) σ t := by
        intro reg t
        cases hc : cells v with
        | inst m args => exact absurd hc (hi' m args)
        | output _ _ s => cases s <;> rfl
        | _ => rfl
      constructor
      · rintro ⟨-, h2⟩
        exact ⟨fun _ => 0, h2 hi'⟩
      · rintro ⟨reg, h⟩
        exact ⟨fun m args e => absurd e (hi' m args), fun _ t => by rw [← hreg reg t]; exact h t⟩
  unfold LibRun CircuitRun
  constructor
  · intro h
    have : ∀ v, ∃ reg, v < size → cells v ≠ .gone → ∀ t, cellOut port oob reg (cells v) σ t = some (σ v t) := by
      intro v
      by_cases hv : v < size
      · by_cases hg : cells v = .gone
        · exact ⟨fun _ => 0, fun _ h => absurd hg h⟩
        · obtain ⟨reg, hr⟩ := (hstep v hv hg).mp (h v hv hg)
          exact ⟨reg, fun _ _ => hr⟩
      · exact ⟨fun _ => 0, fun h => absurd h hv⟩
    obtain ⟨reg, hreg⟩ := Classical.axiom_of_choice this
    exact ⟨reg, fun v hv hg => hreg v hv hg⟩
  · rintro ⟨reg, h⟩ v hv hg
    exact (hstep v hv hg).mpr ⟨reg v, h v hv hg⟩

/-! ### Compiled kernels -/

theorem fit_create {op : HwOp} (hl : (createModule op).latency ≤ 2 ^ 31) (hr : 0 < (createModule op).res.width ∧ (createModule op).res.width ≤ 2 ^ 31)
    (ha : ∀ t ∈ (createModule op).args, 0 < t.width ∧ t.width ≤ 2 ^ 31) (hf : ∀ t l, op = .fifo t l → 0 < l)
    (hc : ∀ ins out l, op = .unit .cast ins out l → ins.length = 1)
    (hb : ∀ k ins out l, op = .unit k ins out l → k ≠ .cast → k ≠ .neg → ins.length = 2) : Fit (createModule op) := by
  have hst : stubOf (createModule op).name = expectedStub op := by rw [created_name, stub_selection]
  have hfifo : stubOf (createModule op).name = some .fifo → ∃ t l, op = .fifo t l := by
    rw [hst]
    cases op with
    | fifo t l => intro _; exact ⟨t, l, rfl⟩
    | unit k ins out l => cases k <;> intro h <;> simp [expectedStub] at h
  refine ⟨⟨⟨?_, hl, hr.1, fun t h => (ha t h).1⟩, ?_⟩, hr.2, fun t h => (ha t h).2, ?_, ?_, ?_⟩
  · rw [created_name]; exact name_ident op
  · intro h
    obtain ⟨t, l, rfl⟩ := hfifo h
    have := hf t l rfl
    simp only [createModule, posLatency]
    rw [if_pos (by omega)]
    omega
  · intro h
    obtain ⟨t, l, rfl⟩ := hfifo h
    rfl
  · rw [hst]
    cases op with
    | fifo t l => intro h; simp [expectedStub] at h
    | unit k ins out l =>
      cases k <;> intro h <;> simp [expectedStub] at h
      have := hc ins out l rfl
      match ins, this with
      | [a], _ => exact ⟨_, rfl⟩
  · rw [hst]
    intro o
    cases op with
    | fifo t l => intro h; simp [expectedStub] at h
    | unit k ins out l =>
      intro h
      have : ins.length = 2 := by
        cases k <;> first | (simp [expectedStub] at h; done) | exact hb _ ins out l rfl (by decide) (by decide)
      match ins, this with
      | [a, b], _ => exact ⟨_, _, rfl⟩

/-- The modules of a scheduled kernel are as the generator expects them. -/
theorem scheduled_fit {V : Nat → NodeV} {order : List Nat} (hc : ∀ n ∈ order, Complete V n) (hto : TopoOrder V order)
    (hof : ∀ n ∈ order, ∀ k, (V n).data = .offset k → -(2^31 : Int) ≤ k ∧ k < 2^31) (hty : ∀ n ∈ order, SizeOK (V n).ty)
    {bs : List (Sched.Chan × Int)} (hbs : ∀ p ∈ bs, p.1 ∈ channels (progOf (block V order)))
    {X : Prog} (h : applySchedule (progOf (block V order)) bs = .ok X) (lat : Nat → Int) {v : Nat} (hv : v < X.size) {op : HwOp}
    (ho : hwOpOf (opsOf (block V order)) X lat v = some op) (hl : (createModule op).latency ≤ 2 ^ 31) : Fit (createModule op) := by
  have hw : ∀ n ∈ order, 0 < (convertType (hwTy (V n).ty)).width ∧ (convertType (hwTy (V n).ty)).width ≤ 2 ^ 31 := by
    intro n hn
    rw [fty_width]
    have := hty n hn
    exact ⟨this.1, by have := this.2.1; omega⟩
  by_cases hvo : v < order.length
  · obtain ⟨hn, hi⟩ := value_is_node hto.nodup hvo
    generalize order[v] = n at hn hi
    subst hi
    rw [scheduled_units hc hto hof hbs h lat hn] at ho
    cases hu : opUnit (V n).op with
    | none => rw [hu] at ho; cases ho
    | some k =>
      rw [hu, Option.map_some] at ho
      have ho := (Option.some.inj ho).symm
      subst ho
      refine fit_create hl (hw n hn) ?_ (fun t l e => by cases e) ?_ ?_
      · intro t ht
        simp only [createModule, List.map_map, List.mem_map, Function.comp_apply] at ht
        obtain ⟨s, hs, rfl⟩ := ht
        exact hw s (srcs_in_order hto hn hs).1
      · intro ins out l e
        injection e with e1 e2 e3 e4
        have e1 : (V n).op = .CAST := by
          rw [e1] at hu
          cases hop : (V n).op <;> rw [hop] at hu <;> simp [opUnit] at hu
        obtain ⟨s, hs⟩ := (hc n hn).unary (by simp [e1])
        rw [← e2, hs]; rfl
      · intro k' ins out l e h1 h2
        injection e with e1 e2 e3 e4
        subst e1
        have hbin : (V n).op ∈ [.ADD, .SUB, .MUL, .DIV, .AND, .OR, .XOR, .LESS, .LESSEQ, .GREATER, .GREATEREQ, .EQ, .NEQ, .CAT] := by
          cases hop : (V n).op <;> rw [hop] at hu <;> simp [opUnit] at hu <;> subst hu <;> first | (simp; done) | exact absurd rfl h1 | exact absurd rfl h2
        obtain ⟨a, b, hs⟩ := (hc n hn).binary hbin
        rw [← e2, hs]; rfl
  · obtain ⟨n, hn, d, hd, e⟩ := scheduled_buffers hc hto hof hbs h lat (Nat.le_of_not_lt hvo) hv
    rw [e] at ho
    cases ho
    refine fit_create hl (hw n hn) ?_ (fun t l e => by cases e; exact hd) (fun _ _ _ e => by cases e) (fun _ _ _ _ e => by cases e)
    intro t ht
    simp only [createModule, List.mem_cons, List.not_mem_nil, or_false] at ht
    subst ht
    exact hw n hn

/-- What a design looks like: the conversion of a scheduled block of the kernel. -/
def Shape (w : World) (g : KGraph) (cells : Nat → Cell) (size : Nat) : Prop :=
  ∃ order lat bs X blk, order.Perm g.nodes ∧ TopoOrder w.view order ∧ (∀ n ∈ order, Complete w.view n) ∧
      (∀ p ∈ bs, p.1 ∈ channels (progOf (block w.view order))) ∧ applySchedule (progOf (block w.view order)) bs = .ok X ∧ BlockOrder X blk ∧
      cells = circuitOf (opsOf (block w.view order)) X lat blk ∧ size = X.size

theorem scheduled_shape {F : FloatOps} {w : World} {g : KGraph} (h : Hist F Proper World.init w) (hf : Finished w g) {file : Option Config.JsonDoc}
    {L : Nat → Nat} (H : HwHandled w.view L g.nodes) {cells : Nat → Cell} {size : Nat}
    (hc : Scheduled w g file cells size) : Shape w g cells size := by
  cases hc with
  | asap he ht hb hp ha hk =>
    obtain ⟨order, h1, h2, h3, h4, -⟩ := finished_kernel_is_processable h hf he
    rw [ht] at h1; cases h1
    rw [buildBody_exact w.view _ h3 h4] at hb
    have hb := (Except.ok.inj hb).symm
    subst hb
    exact ⟨_, _, _, _, _, h2, h3, h4, fun p hp' => (buffersFor_mem.1 (hp.mem_iff.1 hp')).1, ha, hk, rfl, rfl⟩
  | lp he ht hb ho hx hp ha hk =>
    rename_i G order0 prog0 x perm r blk
    obtain ⟨order, h1, h2, h3, h4, -⟩ := finished_kernel_is_processable h hf he
    rw [ht] at h1; cases h1
    have hb : prog0 = block w.view order0 := Except.ok.inj (hb.symm.trans (buildBody_exact w.view _ h3 h4))
    subst hb
    have hP := block_wf h3 h4 fun n hn => H.offs n (h2.mem_iff.mp hn)
    have hi := lp_vertex_integral hP hx
    have hbe := lpBuffers_eq hP ho.1 hi
    unfold lpRun at ha
    cases hap : applySchedule (progOf (block w.view order0)) (perm (lpBuffers (progOf (block w.view order0))
      (lpBuild (progOf (block w.view order0)) (latOf file (opsOf (block w.view order0)))) (.solved x))) with
    | error f => rw [hap] at ha; cases ha
    | ok X =>
      rw [hap] at ha
      cases ha
      refine ⟨_, _, _, _, _, h2, h3, h4, fun p hp' => ?_, hap, hk, rfl, rfl⟩
      have := (hp _).mem_iff.1 hp'
      rw [hbe] at this
      exact (buffersFor_mem.1 this).1

theorem compiled_shape {F : FloatOps} {w : World} {g : KGraph} (h : Hist F Proper World.init w) (hf : Finished w g) {file : Option Config.JsonDoc}
    {L : Nat → Nat} (H : HwHandled w.view L g.nodes) (hof : ∀ n ∈ g.nodes, (w.view n).op ≠ .OFFSET) {cells : Nat → Cell} {size : Nat}
    (hc : Compiled w g file cells size) : Shape w g cells size := by
  cases hc with
  | asap he ht hb hp ha hk => exact scheduled_shape h hf (file := file) H (.asap he ht hb hp ha hk)
  | lp he ht hb ho hx hp ha hk => exact scheduled_shape h hf H (.lp he ht hb ho hx hp ha hk)
  | comb he ht hb hst hp hX hk =>
    rename_i G order0 prog0 A stages perm X blk
    obtain ⟨order, h1, h2, h3, h4, -⟩ := finished_kernel_is_processable h hf he
    rw [ht] at h1; cases h1
    have hb : prog0 = block w.view order0 := Except.ok.inj (hb.symm.trans (buildBody_exact w.view _ h3 h4))
    subst hb
    have hP := block_wf h3 h4 fun n hn => H.offs n (h2.mem_iff.mp hn)
    have hK : CombKernel (progOf (block w.view order0)) := by
      refine ⟨?_, ?_⟩
      · intro i hi s k hd
        rw [progOf_size] at hi
        obtain ⟨hn, he⟩ := value_is_node h3.nodup hi
        generalize order0[i] = n at hn he
        subst he
        rw [progOf_defn _ hn (h4 n hn)] at hd
        unfold defOf at hd
        cases ho : (w.view n).op
        case OFFSET => exact hof n (h2.mem_iff.mp hn) ho
        case IN => rw [ho] at hd; by_cases hk : (w.view n).kind = .stream <;> simp [hk] at hd
        case MUX => rw [ho] at hd; cases he : (w.view n).srcs <;> simp [he] at hd
        all_goals rw [ho] at hd; simp at hd
      · intro i hi r hr s hd
        exact block_readOutputs h3 h4 (H.reads' h2) (o := r) ⟨by rw [hd]; rfl, i, hi, hr⟩
    rcases Nat.eq_zero_or_pos stages with rfl | hs
    · rw [combPipeline, if_pos rfl] at hX
      cases hX
      refine ⟨order0, _, [], _, _, h2, h3, h4, by simp, ?_, hk, rfl, rfl⟩
      simp only [applySchedule, insertBuffers]
      rw [eraseOffsets_id (P := progOf (block w.view order0)) hK.noOffset _ (Nat.le_refl _)]
    · rcases combPipeline_eq hP hK A stages hs hst perm with ⟨f, _, he⟩ | ⟨casc, hc, he⟩
      · rw [he] at hX; cases hX
      rw [he] at hX
      have hno := insertBuffers_noOffset _ hX hK.noOffset
      have hbs : ∀ p ∈ perm (buffersFor (progOf (block w.view order0)) (fun _ => 0) (combDelay (progOf (block w.view order0)) casc)),
          p.1 ∈ channels (progOf (block w.view order0)) := fun p hp' => (buffersFor_mem.1 ((hp _).mem_iff.1 hp')).1
      have hsz : (progOf (block w.view order0)).size ≤ X.size :=
        (insertBuffers_ranked _ hP.ranked (fun p hp' => (chan_lt hP (hbs p hp')).2) hX).2
      refine ⟨_, _, _, _, _, h2, h3, h4, hbs, ?_, hk, rfl, rfl⟩
      simp only [applySchedule, hX]
      rw [eraseOffsets_id hno _ hsz]

/-- No latency of the design exceeds 2^31. -/
def Bounded (cells : Nat → Cell) (size : Nat) : Prop := ∀ v < size, ∀ m args, cells v = .inst m args → m.latency ≤ 2 ^ 31

/-- The modules of a design are as the generator expects them. -/
theorem shape_fit {w : World} {g : KGraph} {L : Nat → Nat} (H : HwHandled w.view L g.nodes) {cells : Nat → Cell} {size : Nat}
    (hc : Shape w g cells size) {ms : List Module} (hm : ModulesOf cells size ms) (hl : Bounded cells size) : ∀ m ∈ ms, Fit m := by
  obtain ⟨order, lat, bs, X, blk, h1, h2, h3, h4, h5, h6, rfl, rfl⟩ := hc
  intro m hmem
  obtain ⟨v, hv, args, hcell⟩ := (hm.2 m).mp hmem
  have hlk := cell_inst hcell
  have hvb := (h6.2 v).mpr hv
  have hsome : ∃ o, hwOpOf (opsOf (block w.view order)) X lat v = some o := by
    have := mem_of_lookup_nat hlk
    unfold instances at this
    have := (List.of_mem_zip this).1
    obtain ⟨p, hp, rfl⟩ := List.mem_map.mp this
    obtain ⟨u, hu, e⟩ := List.mem_filterMap.mp hp
    cases hq : hwOpOf (opsOf (block w.view order)) X lat u with
    | none => rw [hq] at e; cases e
    | some o => rw [hq] at e; cases e; exact ⟨o, hq⟩
  obtain ⟨o, ho⟩ := hsome
  obtain ⟨u, op', hu, huo, e, -⟩ := instances_lookup (opsOf (block w.view order)) X lat h6.1 hvb ho
  have em : m = createModule op' := by
    have := hlk.symm.trans e
    exact Option.some.inj this
  subst em
  exact scheduled_fit h3 h2 (fun n hn => H.offs n (h1.mem_iff.mp hn)) (fun n hn => (H.prod n (h1.mem_iff.mp hn)).1) h4 h5 lat ((h6.2 u).mp hu) huo
    (hl v hv _ args hcell)

/-- A design has external modules. -/
theorem shape_modules {w : World} {g : KGraph} {cells : Nat → Cell} {size : Nat} (hc : Shape w g cells size) : ∃ ms, ModulesOf cells size ms := by
  obtain ⟨order, lat, bs, X, blk, h1, h2, h3, h4, h5, h6, rfl, rfl⟩ := hc
  exact ⟨_, circuit_modules _ X lat h6⟩

section
variable {F : FloatOps} {w : World} {g : KGraph} {file : Option Config.JsonDoc} {cells : Nat → Cell} {size : Nat} {ms : List Module} {time : List Char}

/-- **C80.**  For every kernel hardware is produced for and every design made by the ASAP or the linear-programming pass: the generated library is a text
that is read as Verilog modules with different names, and the runs of the circuit with these modules in place of its external modules are exactly the runs
of the circuit (for some contents of the registers at power-up). -/
theorem scheduled_library (h : Hist F Proper World.init w) (hf : Finished w g) {L : Nat → Nat} (H : HwHandled w.view L g.nodes)
    (hc : Scheduled w g file cells size) (hm : ModulesOf cells size ms) (hl : Bounded cells size) (ht : '\n' ∉ time) :
    ∃ as, read (libText ms time) = some as ∧ (as.map Mod.name).Nodup ∧ ∀ port oob σ,
      LibRun as cells size port oob σ ↔ ∃ reg, CircuitRun cells size port oob reg σ :=
  library_runs hm (shape_fit H (scheduled_shape h hf H hc) hm hl) ht

/-- **C80, all passes.**  The same for kernels without offsets and also for combinational pipelining. -/
theorem compiled_library (h : Hist F Proper World.init w) (hf : Finished w g) {L : Nat → Nat} (H : HwHandled w.view L g.nodes)
    (hof : ∀ n ∈ g.nodes, (w.view n).op ≠ .OFFSET) (hc : Compiled w g file cells size) (hm : ModulesOf cells size ms) (hl : Bounded cells size)
    (ht : '\n' ∉ time) :
    ∃ as, read (libText ms time) = some as ∧ (as.map Mod.name).Nodup ∧ ∀ port oob σ,
      LibRun as cells size port oob σ ↔ ∃ reg, CircuitRun cells size port oob reg σ :=
  library_runs hm (shape_fit H (compiled_shape h hf H hof hc) hm hl) ht

theorem Computes.lib {V : Nat → NodeV} {nodes : List Nat} {as : List Mod} (hc : Computes V nodes cells size)
    (h : ∀ port oob σ, LibRun as cells size port oob σ ↔ ∃ reg, CircuitRun cells size port oob reg σ) : LibComputes V nodes cells size as := by
  obtain ⟨wire, delay, g1, g2⟩ := hc
  refine ⟨wire, delay, g1, fun port oob hp ho => ⟨?_, fun σ hσ => ?_⟩⟩
  · obtain ⟨⟨σ, hσ⟩, -⟩ := g2 port oob (fun _ _ => 0) hp ho
    exact ⟨σ, (h port oob σ).mpr ⟨_, hσ⟩⟩
  · obtain ⟨reg, hr⟩ := (h port oob σ).mp hσ
    exact (g2 port oob reg hp ho).2 σ hr

theorem HwComputes.lib {V : Nat → NodeV} {nodes : List Nat} {as : List Mod} (hc : HwComputes V nodes cells size)
    (h : ∀ port oob σ, LibRun as cells size port oob σ ↔ ∃ reg, CircuitRun cells size port oob reg σ) : LibHwComputes V nodes cells size as := by
  obtain ⟨wire, delay, g1, g2⟩ := hc
  refine ⟨wire, delay, g1, fun port oob hp ho => ⟨?_, fun σ hσ => ?_⟩⟩
  · obtain ⟨⟨σ, hσ⟩, -⟩ := g2 port oob (fun _ _ => 0) hp ho
    exact ⟨σ, (h port oob σ).mpr ⟨_, hσ⟩⟩
  · obtain ⟨reg, hr⟩ := (h port oob σ).mp hσ
    exact (g2 port oob reg hp ho).2 σ hr

theorem handled_hw (h : Hist F Proper World.init w) (hf : Finished w g) {L : Nat → Nat} (H : Handled w.view L g.nodes) : HwHandled w.view L g.nodes := by
  obtain ⟨order, -, h2, -, h4, -⟩ := finished_kernel_is_processable h hf (sortGraph_enum (w := w) (g := g))
  exact H.hw fun n hn => h4 n (h2.mem_iff.mpr hn)

/-- **C80 with C58.**  For every kernel without offsets that the back end handles, and every design the compiler may produce for it: the generated library
is read as Verilog modules, and the circuit together with these modules computes the kernel's streams. -/
theorem library_computes (h : Hist F Proper World.init w) (hf : Finished w g) (H : ∀ L, Handled w.view L g.nodes)
    (hof : ∀ n ∈ g.nodes, (w.view n).op ≠ .OFFSET) (hc : Compiled w g file cells size) (hm : ModulesOf cells size ms) (hl : Bounded cells size)
    (ht : '\n' ∉ time) :
    ∃ as, read (libText ms time) = some as ∧ (as.map Mod.name).Nodup ∧ LibComputes w.view g.nodes cells size as := by
  obtain ⟨as, h1, h2, h3⟩ := compiled_library h hf (handled_hw h hf (H fun _ => 0)) hof hc hm hl ht
  exact ⟨as, h1, h2, Computes.lib (compiled_computes h hf H hof hc) h3⟩

/-- **C80 with C58, offsets.**  The same for kernels with or without offsets, and the two scheduling passes. -/
theorem library_scheduled_computes (h : Hist F Proper World.init w) (hf : Finished w g)
    (H : Handled w.view (fun n => nodeLatency file (w.view n)) g.nodes)
    (hc : Scheduled w g file cells size) (hm : ModulesOf cells size ms) (hl : Bounded cells size) (ht : '\n' ∉ time) :
    ∃ as, read (libText ms time) = some as ∧ (as.map Mod.name).Nodup ∧ LibComputes w.view g.nodes cells size as := by
  obtain ⟨as, h1, h2, h3⟩ := scheduled_library h hf (handled_hw h hf H) hc hm hl ht
  refine ⟨as, h1, h2, Computes.lib ?_ h3⟩
  cases hc with
  | asap he ht hb hp ha hk =>
    obtain ⟨order', prog', h1, h2, h3⟩ := asap_compile_computes h hf he file H
    rw [ht] at h1; cases h1
    rw [hb] at h2; cases h2
    obtain ⟨X', h4, h5⟩ := h3 _ hp
    rw [ha] at h4; cases h4
    exact h5 _ hk
  | lp he ht hb ho hx hp ha hk =>
    obtain ⟨order', prog', h1, h2, h3⟩ := lp_compile_computes h hf he file H
    rw [ht] at h1; cases h1
    rw [hb] at h2; cases h2
    obtain ⟨X', h4, h5⟩ := h3 _ ho hx _ hp
    rw [ha] at h4; cases h4
    exact h5 _ hk

/-- **C80 with C68.**  The same for the larger class of kernels hardware is produced for, with the streams as the hardware of the operators defines them. -/
theorem library_hw (h : Hist F Proper World.init w) (hf : Finished w g) (H : ∀ L, HwHandled w.view L g.nodes)
    (hof : ∀ n ∈ g.nodes, (w.view n).op ≠ .OFFSET) (hsg : SignsByWidth w.view g.nodes) (hc : Compiled w g file cells size)
    (hm : ModulesOf cells size ms) (hl : Bounded cells size) (ht : '\n' ∉ time) :
    ∃ as, read (libText ms time) = some as ∧ (as.map Mod.name).Nodup ∧ LibHwComputes w.view g.nodes cells size as := by
  obtain ⟨as, h1, h2, h3⟩ := compiled_library h hf (H fun _ => 0) hof hc hm hl ht
  exact ⟨as, h1, h2, HwComputes.lib (compiled_hw h hf H hof hsg hc) h3⟩

end

end Verif.Vlog
