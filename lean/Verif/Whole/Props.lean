import Verif.Whole.Stages
import Verif.Sdf.Fit
/-
C78: the tool as a whole.
-/
namespace Verif.Whole
open Verif.Dfcxx Verif.Flow Verif.Sched Verif.Driver Verif.Cli.Spec
open Verif.Config (Format)
open Verif.Sdf (Pass)

/-! ### Specification -/

/-- After a run, the file named for the format `f` (if one is named) holds `s`. -/
def Holds (is : List Item) (fs : Files) (f : Format) (s : String) : Prop := ∀ v, Item.out f v ∈ is → fs (v.getD (outDefault f)) = some s

/-- The arguments `ls` are a documented command line of `hls` mode with the options `is`, naming different files that can be written. -/
structure Line (canOpen : String → Bool) (is : List Item) (ls : List String) : Prop where
  writes : WritesAll is ls
  valid : Valid Decimal is
  noHelp : .help ∉ is
  distinct : ∀ f g v w, Item.out f v ∈ is → Item.out g w ∈ is → v.getD (outDefault f) = w.getD (outDefault g) → f = g
  opens : ∀ f v, Item.out f v ∈ is → canOpen (v.getD (outDefault f)) = true

/-- The latency configuration the options name (`read`: by path). -/
inductive Configured (read : String → Option Config.JsonDoc) (is : List Item) : Option Config.JsonDoc → Prop
  | given {v : Option String} : Item.config v ∈ is → v.getD "latency.json" ≠ "" → Configured read is (read (v.getD "latency.json"))
  | absent : (∀ v, Item.config v ∉ is) → Configured read is none

/-- The options ask for combinational pipelining with `n` stages: by `--pipeline`, or by no scheduler option at all (then 0). -/
inductive Pipelined (is : List Item) : Nat → Prop
  | bare : Item.pipeline none ∈ is → Pipelined is 0
  | number {v : String} {n : Nat} : Item.pipeline (some v) ∈ is → Decimal v n → Pipelined is n
  | absent : Item.asap ∉ is → Item.linear ∉ is → (∀ v, Item.pipeline v ∉ is) → Pipelined is 0

variable {C : Type}

/-- What CIRCT makes of a FIRRTL module: the passes one after the other, each result verified, then the export. -/
def exported (E : Env C) (cells : Nat → Cell) (size : Nat) : Option String :=
  let ok : Mod C → Bool := fun m => match m with
    | .later c => E.laterOK c
    | .firrtl c s => E.firrtlOK c s
    | .dfcir s => verifyBlock s
    | .scheduled s _ X _ => (List.range X.size).all (verifyValue s X)
  (E.circt.foldl (fun r f => r.bind fun m => (f m).bind fun m => if ok m then some m else none) (some (.firrtl cells size))).bind E.exportVerilog

/-- A run of the tool ended with exit code `code`, left the files `fs'` (they were `fs`) and made the design `cells` (`size` operations) of the kernel.
Every file named for the FIRRTL text, the library of modules or the SystemVerilog text holds the text of that design, provided CIRCT accepts it; the DOT
file and the two DFCIR files hold their texts in any case, and the design is the one made from the scheduled block; no other file changes; the exit code is 0 exactly if CIRCT accepts the design and, if
SystemVerilog is asked for, exports it. -/
structure Delivered (E : Env C) (name : String) (w : World) (g : KGraph) (is : List Item) (fs : Files) (cells : Nat → Cell) (size : Nat) (code : Nat)
    (fs' : Files) : Prop where
  exit : code = 0 ∨ code = 1
  success : code = 0 ↔ E.firrtlOK cells size = true ∧ ((∃ v, Item.out .SystemVerilog v ∈ is) → (exported E cells size).isSome)
  firrtl : E.firrtlOK cells size = true → Holds is fs' .FIRRTL (E.printFirrtl cells size)
  library : E.firrtlOK cells size = true → Holds is fs' .SVLibrary (E.stubs cells size)
  verilog : E.firrtlOK cells size = true → ∀ s, exported E cells size = some s → Holds is fs' .SystemVerilog s
  dot : Holds is fs' .DOT (Dot.dotText w name E.time (E.dotNodes w g))
  dfcir : ∃ prog, build E w g = .ok (.dfcir prog) ∧ Holds is fs' .UnscheduledDFCIR (String.ofList ((Text.printed name prog).getD []))
  scheduled : ∃ file conf prog bs X att, build E w g = .ok (.dfcir prog) ∧ Pass w g file conf prog bs X att ∧ cells = design prog bs X att ∧ size = X.size ∧
    Holds is fs' .ScheduledDFCIR (String.ofList ((Sdf.schedText name prog bs X att).getD []))
  others : ∀ q, (∀ f v, Item.out f v ∈ is → q ≠ v.getD (outDefault f)) → fs' q = fs q

/-! ### Proofs -/

section
variable {F : FloatOps} {w : World} {g : KGraph} {E : Env C} {b : String → Option Bool} {cfg : Cli.SimConfig}
  {sim : String → String → Files → Except Fault (Nat × Files)} {name : String} {is : List Item} {ls : List String} {fs : Files}

theorem config_of_means {c : String} {o : Options} (hw : WritesAll is ls) (hm : Means Decimal is c o) : Configured E.config is (latencyFile E c) := by
  by_cases hx : ∃ v, Item.config v ∈ is
  · obtain ⟨v, hv⟩ := hx
    have hne : v.getD "latency.json" ≠ "" := by
      clear hm
      induction hw with
      | nil => cases hv
      | cons hi _ ih =>
        rcases List.mem_cons.mp hv with e | h
        · subst e
          cases hi with
          | config hx =>
            cases hx with
            | bare => simp
            | next hp => exact hp.1
            | eq hp => exact hp
        · exact ih h
    rw [hm.config_given v hv]
    unfold latencyFile
    rw [if_neg hne]
    exact .given hv hne
  · rw [not_exists] at hx
    rw [hm.config_absent hx]
    unfold latencyFile
    rw [if_pos rfl]
    exact .absent hx

/-- The stages before CIRCT succeed. -/
theorem delivered_of {c : String} {o : Options} {prog : List DStmt} {bs : List (Sched.Chan × Int)} {X : Prog} {att : Nat → Int} {conf : Bool}
    {file : Option Config.JsonDoc} (hl : Line E.canOpen is ls) (hm : Means Decimal is c o) (hpass : Pass w g file conf prog bs X att)
    (hb : build E w g = .ok (.dfcir prog))
    (hs : (match o.scheduler with
      | .linear => linearPass E (latencyFile E c) (.dfcir prog)
      | .asap => asapPass E (latencyFile E c) (.dfcir prog)
      | .combPipelining => combPass E o.stages (.dfcir prog)) = some (.scheduled prog bs X att))
    (hv : (List.range X.size).all (verifyValue prog X) = true) (hcv : converted X (design prog bs X att) = true)
    (hrun : ∃ code fs', tool E b cfg sim name w g ("hls" :: ls) fs = .ok (code, fs') ∧
        (code = 0 ∨ code = 1) ∧ (code = 0 ↔ AllSucceed (backend E name w g (latencyFile E c)) o (.dfcir prog)) ∧
        (∀ f v, Item.out f v ∈ is → fs' (v.getD (outDefault f)) = some ((artefact (backend E name w g (latencyFile E c)) o (.dfcir prog) f).getD "")) ∧
        (∀ q, (∀ f v, Item.out f v ∈ is → q ≠ v.getD (outDefault f)) → fs' q = fs q)) :
    ∃ code fs', tool E b cfg sim name w g ("hls" :: ls) fs = .ok (code, fs') ∧
      Delivered E name w g is fs (design prog bs X att) X.size code fs' := by
  obtain ⟨code, fs', r1, r2, r3, r4, r5⟩ := hrun
  generalize hB : backend E name w g (latencyFile E c) = B at *
  generalize hcells : design prog bs X att = cells at *
  have hsch : scheduled B o (.dfcir prog) = some (.scheduled prog bs X att) := by
    have e : (match o.scheduler with
      | .linear => B.linear (.dfcir prog)
      | .asap => B.asap (.dfcir prog)
      | .combPipelining => B.comb o.stages (.dfcir prog)) = some (.scheduled prog bs X att) := by
      rw [← hs, ← hB]; cases o.scheduler <;> rfl
    have e' : scheduled B o (.dfcir prog) = checked B (some (.scheduled prog bs X att)) := congrArg (checked B) e
    rw [e', ← hB]
    simp only [checked, backend, Option.bind_some, hv, if_true]
  have hfir : B.toFIRRTL (.scheduled prog bs X att) = some (.firrtl cells X.size) := by
    rw [← hB]
    simp only [backend, firrtlPass, hcells, hcv, if_true]
  have hver : B.verify (.firrtl cells X.size) = E.firrtlOK cells X.size := by rw [← hB]; rfl
  have hlow : lowered B o (.dfcir prog) = if E.firrtlOK cells X.size = true then some (.firrtl cells X.size) else none := by
    unfold lowered
    rw [hsch]
    simp only [Option.bind_some, checked, hfir, hver]
  have hopt : E.firrtlOK cells X.size = true → (optimised B o (.dfcir prog)).bind B.exportVerilog = exported E cells X.size := by
    intro hok
    unfold optimised exported
    rw [hlow, if_pos hok]
    have e1 : B.circt = E.circt := by rw [← hB]; rfl
    have e2 : B.exportVerilog = E.exportVerilog := by rw [← hB]; rfl
    have e3 : ∀ m, B.verify m = (match m with
      | .later c => E.laterOK c
      | .firrtl c s => E.firrtlOK c s
      | .dfcir s => verifyBlock s
      | .scheduled s _ X _ => (List.range X.size).all (verifyValue s X)) := by rw [← hB]; intro m; cases m <;> rfl
    rw [e1, e2]
    simp only [checked, e3]
  refine ⟨code, fs', r1, r2, ?_, ?_, ?_, ?_, ?_, ?_, ?_, r5⟩
  · rw [r3]
    unfold AllSucceed
    rw [hlow]
    have hreq : (requested o .SystemVerilog).isSome = true ↔ ∃ v, Item.out .SystemVerilog v ∈ is := by
      rw [Option.isSome_iff_exists]
      constructor
      · rintro ⟨p, hp⟩
        obtain ⟨v, hv, -⟩ := (Cli.requested_iff hl.writes hm).mp hp
        exact ⟨v, hv⟩
      · rintro ⟨v, hv⟩
        exact ⟨_, (Cli.requested_iff hl.writes hm).mpr ⟨v, hv, rfl⟩⟩
    rw [hreq]
    by_cases hok : E.firrtlOK cells X.size = true
    · simp only [hok, if_true, Option.isSome_some, true_and, artefact]
      rw [hopt hok]
    · simp [hok]
  · intro hok v hv
    rw [r4 _ _ hv]
    simp only [artefact, hlow, if_pos hok, Option.map_some, Option.getD_some]
    rw [← hB]; rfl
  · intro hok v hv
    rw [r4 _ _ hv]
    simp only [artefact, hlow, if_pos hok, Option.map_some, Option.getD_some]
    rw [← hB]; rfl
  · intro hok s hs v hv
    rw [r4 _ _ hv]
    simp only [artefact, hopt hok, hs, Option.getD_some]
  · intro v hv
    rw [r4 _ _ hv]
    simp only [artefact, Option.getD_some]
    rw [← hB]; rfl
  · refine ⟨prog, hb, fun v hv => ?_⟩
    rw [r4 _ _ hv]
    simp only [artefact, Option.getD_some]
    rw [← hB]; rfl
  · refine ⟨file, conf, prog, bs, X, att, hb, hpass, hcells.symm, rfl, fun v hv => ?_⟩
    rw [r4 _ _ hv]
    simp only [artefact, hsch, Option.map_some, Option.getD_some]
    rw [← hB]; rfl

theorem line_runs (hl : Line E.canOpen is ls) (hchk : w.check g = true) {prog : List DStmt} (hb : build E w g = .ok (.dfcir prog)) :
    ∃ c o, Means Decimal is c o ∧ ∃ code fs', tool E b cfg sim name w g ("hls" :: ls) fs = .ok (code, fs') ∧
        (code = 0 ∨ code = 1) ∧ (code = 0 ↔ AllSucceed (backend E name w g (latencyFile E c)) o (.dfcir prog)) ∧
        (∀ f v, Item.out f v ∈ is → fs' (v.getD (outDefault f)) = some ((artefact (backend E name w g (latencyFile E c)) o (.dfcir prog) f).getD "")) ∧
        (∀ q, (∀ f v, Item.out f v ∈ is → q ≠ v.getD (outDefault f)) → fs' q = fs q) := by
  obtain ⟨c, o, hm, -, h⟩ := Cli.documented_writes b cfg (fun c => backend E name w g (latencyFile E c)) sim fs hl.writes hl.valid hl.noHelp hl.distinct
    (fun c f v h => hl.opens f v h)
  exact ⟨c, o, hm, h hchk _ hb⟩

/-- **C78, `-a` and `-l`.**  The tool on a finished kernel within what the back end handles, for every documented command line with one of the two
scheduler options: it ends; the design it makes is one of `Scheduled` for the latency configuration named -- so everything proved of those designs
(C58, C68 and the theorems about kernels) holds of it --; and the files named hold its texts. -/
theorem tool_schedules (h : Hist F Proper World.init w) (hf : Finished w g) (hE : E.Fair w g) (hl : Line E.canOpen is ls)
    (ha : Item.asap ∈ is ∨ Item.linear ∈ is)
    (H : ∀ file, Configured E.config is file → HwHandled w.view (fun n => nodeLatency file (w.view n)) g.nodes) (hs : Signs w g) :
    ∃ file cells size code fs', Configured E.config is file ∧ Scheduled w g file cells size ∧
      tool E b cfg sim name w g ("hls" :: ls) fs = .ok (code, fs') ∧ Delivered E name w g is fs cells size code fs' := by
  obtain ⟨order, prog, -, -, hb⟩ := build_ok h hf hE
  obtain ⟨c, o, hm, hrun⟩ := line_runs (b := b) (cfg := cfg) (sim := sim) (name := name) (fs := fs) hl hf.check hb
  have hc := config_of_means (E := E) hl.writes hm
  rcases ha with ha | ha
  · obtain ⟨prog', bs, X, att, g1, g2, g3, g4, g5, g6⟩ := asap_lowers h hf hE (latencyFile E c) (H _ hc) hs
    rw [hb] at g1; cases g1
    obtain ⟨code, fs', r1, r2⟩ := delivered_of hl hm g6 hb (by rw [hm.asap ha]; exact g2) g3 g4 hrun
    exact ⟨_, _, _, code, fs', hc, g5, r1, r2⟩
  · obtain ⟨prog', bs, X, att, g1, g2, g3, g4, g5, g6⟩ := linear_lowers h hf hE (latencyFile E c) (H _ hc) hs
    rw [hb] at g1; cases g1
    obtain ⟨code, fs', r1, r2⟩ := delivered_of hl hm g6 hb (by rw [hm.linear ha]; exact g2) g3 g4 hrun
    exact ⟨_, _, _, code, fs', hc, g5, r1, r2⟩

theorem stages_of_means {c : String} {o : Options} (hm : Means Decimal is c o) {n : Nat} (hp : Pipelined is n) :
    o.scheduler = .combPipelining ∧ o.stages = n := by
  cases hp with
  | bare h => exact hm.pipeline_bare h
  | number h hd => exact hm.pipeline _ _ h hd
  | absent h1 h2 h3 => exact ⟨hm.unscheduled h1 h2 h3, hm.stages h3⟩

/-- **C78, `--pipeline` and no scheduler option.**  The same for kernels without offsets: the design is one of `Compiled`. -/
theorem tool_pipelines (h : Hist F Proper World.init w) (hf : Finished w g) (hE : E.Fair w g) (hl : Line E.canOpen is ls) {n : Nat}
    (hp : Pipelined is n) (hn : n < 2 ^ 31) (H : HwHandled w.view (fun _ => 0) g.nodes) (hof : ∀ n ∈ g.nodes, (w.view n).op ≠ .OFFSET)
    (hs : n = 0 ∨ SignsByWidth w.view g.nodes) :
    ∃ file cells size code fs', Configured E.config is file ∧ Compiled w g file cells size ∧
      tool E b cfg sim name w g ("hls" :: ls) fs = .ok (code, fs') ∧ Delivered E name w g is fs cells size code fs' := by
  obtain ⟨order, prog, -, -, hb⟩ := build_ok h hf hE
  obtain ⟨c, o, hm, hrun⟩ := line_runs (b := b) (cfg := cfg) (sim := sim) (name := name) (fs := fs) hl hf.check hb
  obtain ⟨prog', bs, X, att, g1, g2, g3, g4, g5, g6⟩ := comb_lowers h hf hE (latencyFile E c) H hof hn hs
  rw [hb] at g1; cases g1
  obtain ⟨e1, e2⟩ := stages_of_means hm hp
  obtain ⟨code, fs', r1, r2⟩ := delivered_of hl hm g6 hb (by rw [e1, e2]; exact g2) g3 g4 hrun
  exact ⟨_, _, _, code, fs', config_of_means (E := E) hl.writes hm, g5, r1, r2⟩

/-- The unscheduled DFCIR file holds a text from which a reader of the language gets back the module that was built (C67). -/
theorem delivered_dfcir (h : Hist F Proper World.init w) (hf : Finished w g) (hE : E.Fair w g) (hd : ∀ n ∈ g.nodes, DialectOK w.view n)
    (hff : ∀ n ∈ g.nodes, Text.FieldsFit (w.view n)) {pick : Text.IntAttr → Text.IntAttr → Text.IntAttr} (hp : ∀ a, pick a a = a)
    {cells : Nat → Cell} {size code : Nat} {fs' : Files} (hdel : Delivered E name w g is fs cells size code fs') :
    ∃ prog f t, build E w g = .ok (.dfcir prog) ∧ Text.fileText name prog = some f ∧ Text.parse pick t = some f ∧
      Holds is fs' .UnscheduledDFCIR (String.ofList t) := by
  obtain ⟨prog, h1, h2⟩ := hdel.dfcir
  obtain ⟨order, prog', f, t1, t2, t3, -, t4⟩ := Text.api_text_parses h hf hE.graph hd hff name hp
  have e : build E w g = .ok (.dfcir prog') := by unfold build; rw [t1]; simp only [t2]
  rw [h1] at e; cases e
  refine ⟨prog, f, Text.print f, h1, t3, t4, ?_⟩
  unfold Text.printed at h2
  rw [t3] at h2
  exact h2

/-- **C81, the file.**  The scheduled DFCIR file of a run holds a text which, read back and converted, gives a design that computes the streams of the
kernel if the design of the run does -- whatever the scheduler options --, provided the kernel is modest (C82) or at least no buffer is 2^31 cycles long. -/
theorem delivered_scheduled (h : Hist F Proper World.init w) (hf : Finished w g) (hd : ∀ n ∈ g.nodes, DialectOK w.view n)
    (hff : ∀ n ∈ g.nodes, Text.FieldsFit (w.view n))
    (ho : ∀ n ∈ g.nodes, ∀ k, (w.view n).data = .offset k → -(2 ^ 31 : Int) ≤ k ∧ k < 2 ^ 31)
    (hr : ∀ n ∈ g.nodes, ∀ s ∈ (w.view n).srcs, (w.view s).op ≠ .OUT) {pick : Text.IntAttr → Text.IntAttr → Text.IntAttr} (hp : ∀ a, pick a a = a)
    {cells : Nat → Cell} {size code : Nat} {fs' : Files} (hdel : Delivered E name w g is fs cells size code fs') :
    ∃ file conf prog bs X att, build E w g = .ok (.dfcir prog) ∧ Pass w g file conf prog bs X att ∧ ((Sdf.ModestKernel w.view g.nodes ∨ ∀ p ∈ bs, p.2 < 2 ^ 31) →
      ∃ t cells' size', Holds is fs' .ScheduledDFCIR (String.ofList t) ∧ Sdf.convertText pick t = some (cells', size') ∧
        (HwComputes w.view g.nodes cells size → HwComputes w.view g.nodes cells' size')) := by
  obtain ⟨file, conf, prog, bs, X, att, h1, h2, rfl, rfl, h3⟩ := hdel.scheduled
  refine ⟨file, conf, prog, bs, X, att, h1, h2, fun hfit => ?_⟩
  have hfit : ∀ p ∈ bs, p.2 < 2 ^ 31 := hfit.elim (fun hm => h2.fits h hf ho hm) id
  obtain ⟨txt, cells', size', e1, e2, e3⟩ := Sdf.scheduled_text_transports h hf hd hff ho hr h2 hfit name hp
  rw [e1] at h3
  exact ⟨txt, cells', size', h3, e2, e3⟩

/-- **C78, a limit.**  A kernel with a stream offset cannot be compiled without one of the two scheduler options (`--pipeline 0` is the default):
the exit code is 1, and the files named for FIRRTL, the library and SystemVerilog are left empty. -/
theorem offsets_need_a_scheduler (h : Hist F Proper World.init w) (hf : Finished w g) (hE : E.Fair w g) (hl : Line E.canOpen is ls)
    (hp : Pipelined is 0) {n : Nat} (hn : n ∈ g.nodes) (ho : (w.view n).op = .OFFSET) :
    ∃ fs', tool E b cfg sim name w g ("hls" :: ls) fs = .ok (1, fs') ∧
      ∀ f, f = .FIRRTL ∨ f = .SVLibrary ∨ f = .SystemVerilog → Holds is fs' f "" := by
  obtain ⟨order, prog, ht, hbb, hb⟩ := build_ok h hf hE
  obtain ⟨c, o, hm, code, fs', r1, r2, r3, r4, r5⟩ := line_runs (b := b) (cfg := cfg) (sim := sim) (name := name) (fs := fs) hl hf.check hb
  obtain ⟨e1, e2⟩ := stages_of_means hm hp
  generalize hB : backend E name w g (latencyFile E c) = B at *
  have hX : ∀ m, scheduled B o (.dfcir prog) = some m → m = .scheduled prog [] (progOf prog) (fun _ => -1) := by
    intro m hm'
    unfold scheduled at hm'
    have := (checked_some hm').1
    rw [e1, e2, ← hB] at this
    simp only [backend, combPass, combPipeline, combInserted, if_true] at this
    exact (Option.some.inj this).symm
  have hconv : B.toFIRRTL (.scheduled prog [] (progOf prog) (fun _ => -1)) = none := by
    rw [← hB]
    simp only [backend, firrtlPass]
    rw [if_neg]
    intro hall
    unfold converted at hall
    rw [List.all_eq_true] at hall
    obtain ⟨order', g1, g2, g3, g4, -⟩ := finished_kernel_is_processable h hf hE.graph
    rw [ht] at g1; cases g1
    have hbe : buildBody w.view order = .ok (block w.view order) := buildBody_exact w.view order g3 g4
    have hpe : prog = block w.view order := by rw [hbb] at hbe; exact Except.ok.inj hbe
    have hno : n ∈ order := g2.mem_iff.mpr hn
    have hlt : order.idxOf n < (progOf (block w.view order)).size := by rw [progOf_size]; exact List.idxOf_lt_length_iff.mpr hno
    have hd : ∃ s k, (progOf (block w.view order)).defn (order.idxOf n) = .offset s k := by
      rw [progOf_defn _ hno (g4 n hno)]
      obtain ⟨s, hs⟩ := (g4 n hno).unary (by rw [ho]; decide)
      obtain ⟨⟨k, hk⟩, -⟩ := (g4 n hno).offset ho
      exact ⟨order.idxOf s, k, by simp only [defOf, ho, hs, hk]⟩
    obtain ⟨s, k, hd⟩ := hd
    rw [hpe] at hall
    have := hall _ (List.mem_range.mpr hlt)
    simp [design, circuitOf, cellOf, hd] at this
  have hlow : lowered B o (.dfcir prog) = none := by
    unfold lowered
    cases hsc : scheduled B o (.dfcir prog) with
    | none => rfl
    | some m =>
      rw [hX m hsc]
      simp [checked, hconv]
  have hopt : optimised B o (.dfcir prog) = none := by
    unfold optimised
    rw [hlow]
    generalize B.circt = l
    induction l with
    | nil => rfl
    | cons _ _ ih => simpa using ih
  have hcode : code = 1 := by
    rcases r2 with hz | hz
    · have := (r3.mp hz).1
      rw [hlow] at this
      cases this
    · exact hz
  subst hcode
  refine ⟨fs', r1, ?_⟩
  rintro f (rfl | rfl | rfl) v hv
  · rw [r4 _ _ hv]; simp [artefact, hlow]
  · rw [r4 _ _ hv]; simp [artefact, hlow]
  · rw [r4 _ _ hv]; simp [artefact, hopt]

end

end Verif.Whole
