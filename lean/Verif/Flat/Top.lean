import Verif.Flat.Rules
import Verif.Flow.Exempt
/-
From the code of a kernel to the hardware: every design the scheduling passes may produce for a kernel shows, at every output port, the
stream established for it.
-/
namespace Verif.Flat
open Verif.Dfcxx Verif.Flow Verif.Kernels

/-- An output port: its name, width and signedness, the first element its stream is defined for, and the stream. -/
structure OutPort where
  name : String
  bits : Nat
  signed : Bool
  start : Nat
  val : Env → Nat → BitVec bits

/-- The design `cells` has the output ports `outs`.  Fed with values of the widths `ins` (name, width) at its input ports, whatever the
registers contain at power-up, it has runs, and in every run every output port shows element `t` of its stream a fixed number of cycles
after cycle `t`. -/
def ShowsAll (cells : Nat → Cell) (size : Nat) (ins : List (String × Nat)) (outs : List OutPort) : Prop :=
  (∀ (port : Env) (oob : Hw.FVal → List Hw.FVal → Hw.FVal) (reg : Nat → Nat → Nat), Fits ins port → OobOK oob →
    ∃ σ, CircuitRun cells size port oob reg σ) ∧
  ∀ o ∈ outs, ∃ wire delay : Nat, wire < size ∧ (∃ ty src, cells wire = .output o.name ty (some src)) ∧
    ∀ (port : Env) (oob : Hw.FVal → List Hw.FVal → Hw.FVal) (reg : Nat → Nat → Nat), Fits ins port → OobOK oob →
      ∀ σ, CircuitRun cells size port oob reg σ → ∀ t, o.start ≤ t → σ wire (delay + t) = ⟨o.signed, o.bits, (o.val port t).toNat⟩

/-- The configuration file gives integer adders, subtractors and multipliers at least one stage. -/
def StagesGiven (file : Option Config.JsonDoc) : Prop :=
  0 < Config.unitLatency file .add false ∧ 0 < Config.unitLatency file .sub false ∧ 0 < Config.unitLatency file .mul false

/-- The constructor `p` of a kernel: it succeeds, what it builds can be compiled, and every design either scheduling pass may produce for it
shows `outs`.  `signed`: the configuration file must give arithmetic units at least one stage. -/
def ScheduledRealizes (p : Build Unit) (signed : Bool) (ins : List (String × Nat)) (outs : List OutPort) : Prop :=
  ∃ w g, p World.init = .ok ((), w) ∧ Finished w g ∧
    ∀ file : Option Config.JsonDoc, (signed = true → StagesGiven file) →
      (∃ cells size, Scheduled w g file cells size) ∧
      ∀ cells size, Scheduled w g file cells size → ShowsAll cells size ins outs

/-- The same for every design the compiler may produce, by any of its three passes. -/
def Realizes (p : Build Unit) (ins : List (String × Nat)) (outs : List OutPort) : Prop :=
  ∃ w g, p World.init = .ok ((), w) ∧ Finished w g ∧
    ∀ file : Option Config.JsonDoc,
      (∃ cells size, Compiled w g file cells size) ∧
      ∀ cells size, Compiled w g file cells size → ShowsAll cells size ins outs

/-- What the code must establish about an output. -/
def Established (C : Cfg) (w : World) (o : OutPort) : Prop :=
  ∃ n, OVal C w n o.name o.signed o.start (fun inp t => o.val inp t.toNat)

section
variable {F : FloatOps} {C : Cfg} {w : World}

theorem OVal.established {n : Nat} {name : String} {k : Nat} {s : Bool} {d : Int} {e : Env → Int → BitVec k} (h : OVal C w n name s d e)
    {st : Nat} {val : Env → Nat → BitVec k} (hd : d ≤ st) (he : ∀ inp, Fits C.ins inp → ∀ t : Nat, st ≤ t → e inp t = val inp t) :
    Established C w ⟨name, k, s, st, val⟩ := by
  refine ⟨n, h.live, h.isOut, h.conn, h.name, h.wid, h.sgn, fun inp hf t ht => ?_⟩
  simp only at ht
  obtain ⟨t, rfl⟩ := Int.eq_ofNat_of_zero_le (show 0 ≤ t by omega)
  have := h.val inp hf t (by omega)
  rw [he inp hf t (by exact_mod_cast ht)] at this
  exact this

theorem fgood_init (F : FloatOps) (C : Cfg) : FGood F C [] World.init := by
  refine ⟨.nil _, ⟨_, rfl, rfl⟩, ?_, by simp⟩
  rintro n ⟨g, hg, hn⟩
  simp only [World.init, List.mem_singleton] at hg
  subst hg
  simp at hn

/-- The kernel is finished. -/
theorem FGood.finished (hg : FGood F C [] w) : ∃ g, Finished w g := by
  obtain ⟨g, hst, -⟩ := hg.flat
  have hlive : ∀ n ∈ g.nodes, w.Live n := fun n hn => ⟨g, by rw [hst]; simp, hn⟩
  have hok : ∀ n ∈ g.nodes, FNode C w.view n := fun n hn => hg.ok n (hlive n hn) (by simp)
  refine ⟨g, hst, ?_, fun n hn ho => ?_, fun n hn ho => ((hok n hn).offTy ho).2⟩
  · unfold World.check
    simp only [List.all_eq_true, decide_eq_true_eq]
    exact fun n hn => (hok n hn).notNone
  · have := (hok n hn).out ho
    simpa [World.view] using this

variable {g : KGraph}

theorem FGood.node (hg : FGood F C [] w) (hf : Finished w g) : ∀ n ∈ g.nodes, FNode C w.view n :=
  fun n hn => hg.ok n ⟨g, by rw [hf.only]; simp, hn⟩ (by simp)

theorem FGood.handled (hg : FGood F C [] w) (hf : Finished w g) {L : Nat → Nat} (hL : ∀ n ∈ g.nodes, unitL C.signed (w.view n).op ≤ L n)
    (hc : ∀ n ∈ g.nodes, (w.view n).op = .CAST → L n = 0) : HwHandled w.view L g.nodes := by
  have hok := hg.node hf
  exact ⟨fun n hn => (produced_mono (hok n hn).prod (hL n hn) (hc n hn)).imp fun _ h => h.size, fun n hn k => (hok n hn).dist k, fun n hn => (hok n hn).few,
    fun n hn s hs => ((hok n hn).srcs s hs).1⟩

theorem stages_floor (file : Option Config.JsonDoc) (h : StagesGiven file) : ∀ {k}, k = Config.Kind.add ∨ k = .sub ∨ k = .mul →
    0 < Config.unitLatency file k false := by
  rintro k (rfl | rfl | rfl)
  exacts [h.1, h.2.1, h.2.2]

/-- The types of the kernels considered are not floating point. -/
theorem notFloat {V : Nat → NodeV} {n : Nat} (h : ProducedFor TypeOK V 0 n ∨ TypeOK (V n).ty) : isFloatTy (V n).ty = false := by
  have : TypeOK (V n).ty := h.elim (fun h => h.1) id
  cases ht : (V n).ty <;> first | rfl | (exact absurd ht (this.2.2 _ _))

theorem FGood.handled_file (hg : FGood F C [] w) (hf : Finished w g) (file : Option Config.JsonDoc)
    (hs : C.signed = true → StagesGiven file) : HwHandled w.view (fun n => nodeLatency file (w.view n)) g.nodes := by
  have hok := hg.node hf
  refine hg.handled hf (fun n hn => ?_) (fun n hn ho => by unfold nodeLatency unitKindOf; rw [ho])
  have hfl := notFloat (V := w.view) (.inr (hok n hn).prod.1)
  unfold unitL
  cases hsg : C.signed with
  | false => cases (w.view n).op <;> simp
  | true =>
    have := hs hsg
    unfold nodeLatency
    rw [hfl]
    cases ho : (w.view n).op <;> simp [unitKindOf]
    exacts [this.1, this.2.1, this.2.2]

theorem FGood.ports (hg : FGood F C [] w) (hf : Finished w g) {port : Env} (h : Fits C.ins port) : PortsOK w.view g.nodes port := by
  have hok := hg.node hf
  exact ⟨fun n hn ho t => h _ ((hok n hn).inn ho).2 t, fun n hn ho hk => absurd ((hok n hn).inn ho).1 hk⟩

theorem FGood.signs (hg : FGood F C [] w) (hf : Finished w g) (hx : ∀ k, C.exempt k = false) : SignsByWidth w.view g.nodes := by
  intro m hm n hn e
  rw [(hg.node hf m hm).sign (hx _), (hg.node hf n hn).sign (hx _), e]

theorem FGood.signsBut (hg : FGood F C [] w) (hf : Finished w g) (hof : C.offs = false) :
    SignsBut w.view g.nodes (fun k => C.exempt k = true) := by
  have hok := hg.node hf
  refine ⟨fun m hm n hn hx e => ?_, fun n hn => (hok n hn).calm, fun n hn ho => ?_⟩
  · have hx' : C.exempt (width (w.view m).ty) = false := by simpa using hx
    rw [(hok m hm).sign hx', (hok n hn).sign (by rw [← e]; exact hx'), e]
  · have := ((hok n hn).offTy ho).1
    rw [hof] at this; cases this

/-- Outputs shown by a circuit that computes the streams. -/
theorem FGood.shows (hg : FGood F C [] w) (hf : Finished w g) {outs : List OutPort} (ho : ∀ o ∈ outs, Established C w o)
    {cells : Nat → Cell} {size : Nat} (hc : HwComputes w.view g.nodes cells size) : ShowsAll cells size C.ins outs := by
  obtain ⟨wire, delay, h1, h2⟩ := hc
  have hlive : ∀ n, w.Live n → n ∈ g.nodes := by
    rintro n ⟨g', h, hn⟩
    rw [hf.only, List.mem_singleton] at h
    rw [← h]; exact hn
  refine ⟨fun port oob reg hp hb => (h2 port oob reg (hg.ports hf hp) hb).1, fun o hm => ?_⟩
  obtain ⟨n, hn⟩ := ho o hm
  have hng := hlive n hn.live
  obtain ⟨p1, src, p2⟩ := h1 n hng hn.isOut
  rw [hn.name] at p2
  refine ⟨wire n, delay n, p1, ⟨_, src, p2⟩, fun port oob reg hp hb σ hr t ht => ?_⟩
  rw [(h2 port oob reg (hg.ports hf hp) hb).2 σ hr n hng hn.isOut t _ (hn.val port hp t (by exact_mod_cast ht)), hn.sgn, hn.wid]
  simp

/-- Compilation succeeds. -/
theorem FGood.compiles (hg : FGood F C [] w) (hf : Finished w g) (file : Option Config.JsonDoc)
    (hs : C.signed = true → StagesGiven file) : ∃ cells size, Scheduled w g file cells size := by
  obtain ⟨order, prog, h1, h2, h3⟩ := asap_compile_hw hg.hist hf sortGraph_enum file (hg.handled_file hf file hs)
  obtain ⟨X, h4, -⟩ := h3 _ (List.Perm.refl _)
  exact ⟨_, _, .asap sortGraph_enum h1 h2 (List.Perm.refl _) h4 ⟨List.nodup_range, fun v => List.mem_range⟩⟩

/-- **From code to hardware.** -/
theorem FDoes.scheduled {p : Build Unit} {outs : List OutPort}
    (h : FDoes F C p World.init (fun _ => []) (fun _ w => ∀ o ∈ outs, Established C w o))
    (hx : (∀ k, C.exempt k = false) ∨ C.offs = false) : ScheduledRealizes p C.signed C.ins outs := by
  obtain ⟨u, w, h1, hg, -, ho⟩ := h
  obtain ⟨g, hf⟩ := hg.finished
  refine ⟨w, g, h1, hf, fun file hs => ⟨hg.compiles hf file hs, fun cells size hc => hg.shows hf ho ?_⟩⟩
  have H := hg.handled_file hf file hs
  cases hc with
  | asap he ht hb hp ha hk =>
    obtain ⟨order', prog', h1, h2, h3⟩ := asap_compile_hw hg.hist hf he file H
    rw [ht] at h1; cases h1
    rw [hb] at h2; cases h2
    obtain ⟨X', h4, h5⟩ := h3 _ hp
    rw [ha] at h4; cases h4
    exact h5 _ hk (hx.imp (hg.signs hf) fun hof => asap_noMixed hg.hist hf he file H (hg.signsBut hf hof) ht hb hp ha)
  | lp he ht hb ho' hx' hp ha hk =>
    obtain ⟨order', prog', h1, h2, h3⟩ := lp_compile_hw hg.hist hf he file H
    rw [ht] at h1; cases h1
    rw [hb] at h2; cases h2
    obtain ⟨X', h4, h5⟩ := h3 _ ho' hx' _ hp
    rw [ha] at h4; cases h4
    exact h5 _ hk (hx.imp (hg.signs hf) fun hof => lp_noMixed hg.hist hf he file H (hg.signsBut hf hof) ht hb ho' hx' hp ha)

/-- **From code to hardware**, unsigned kernels without offsets: all three passes. -/
theorem FDoes.realizes {p : Build Unit} {outs : List OutPort}
    (h : FDoes F C p World.init (fun _ => []) (fun _ w => ∀ o ∈ outs, Established C w o))
    (hx : ∀ k, C.exempt k = false) (hs : C.signed = false) (hof : C.offs = false) : Realizes p C.ins outs := by
  obtain ⟨u, w, h1, hg, -, ho⟩ := h
  obtain ⟨g, hf⟩ := hg.finished
  refine ⟨w, g, h1, hf, fun file => ⟨?_, fun cells size hc => hg.shows hf ho ?_⟩⟩
  · obtain ⟨cells, size, h⟩ := hg.compiles hf file (by simp [hs])
    exact ⟨cells, size, h.compiled⟩
  · have hok := hg.node hf
    have hu : ∀ n, unitL C.signed (w.view n).op = 0 := fun n => by rw [hs]; cases (w.view n).op <;> rfl
    cases hc with
    | asap he ht hb hp ha hk =>
      obtain ⟨order', prog', h1, h2, h3⟩ := asap_compile_hw hg.hist hf he file (hg.handled_file hf file (by simp [hs]))
      rw [ht] at h1; cases h1
      rw [hb] at h2; cases h2
      obtain ⟨X', h4, h5⟩ := h3 _ hp
      rw [ha] at h4; cases h4
      exact h5 _ hk (.inl (hg.signs hf hx))
    | lp he ht hb ho' hx' hp ha hk =>
      obtain ⟨order', prog', h1, h2, h3⟩ := lp_compile_hw hg.hist hf he file (hg.handled_file hf file (by simp [hs]))
      rw [ht] at h1; cases h1
      rw [hb] at h2; cases h2
      obtain ⟨X', h4, h5⟩ := h3 _ ho' hx' _ hp
      rw [ha] at h4; cases h4
      exact h5 _ hk (.inl (hg.signs hf hx))
    | comb he ht hb hst hp ha hk =>
      obtain ⟨order', prog', h1, h2, h3⟩ := comb_compile_hw hg.hist hf he
        (hg.handled hf (L := fun _ => 0) (fun n _ => Nat.le_of_eq (hu n)) (fun _ _ _ => rfl)) (fun n hn h => by have := ((hok n hn).offTy h).1; rw [hof] at this; cases this)
      rw [ht] at h1; cases h1
      rw [hb] at h2; cases h2
      exact h3 _ _ hst _ hp _ ha _ hk (.inr (.inl (hg.signs hf hx)))

end

end Verif.Flat
