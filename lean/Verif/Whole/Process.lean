import Verif.Json.Exact
import Verif.Whole.Kernels
import Verif.Vcd.Instances
/-
C90: the process: from the bytes on disk and the arguments to the files it leaves.
-/
namespace Verif.Whole
open Verif.Dfcxx Verif.Flow Verif.Sched Verif.Driver Verif.Cli.Spec
open Verif.Config (JsonDoc unitLatency fieldName)
open Verif.Json (Doubles Settings IsFile FieldNumbers Latency bytes)

/-! ### Model -/

/-- Why a process ends without an exit code: reading a configuration file, or the rest. -/
inductive Abort where
  | json (f : Json.Fail)
  | fault (f : Fault)

def orAbort {α : Type} : Except Fault α → Except Abort α
  | .ok a => .ok a
  | .error f => .error (.fault f)

/-- The latency file (options.h:330-337), as the schedulers see it (`Json.docOf_reads`).  A file that is there can be opened for reading. -/
def latencies (D : Doubles) (fs : Files) (path : String) : Except Json.Fail (Option JsonDoc) :=
  if path = "" then .ok none else
  match fs path with
  | none => .ok none
  | some s => (Json.docOf D (bytes s)).map some

variable {C : Type}

/-- `main` (main.cpp:60-85) with `Options::initialize` (options.h:388-398): the configuration file of the program (`home`: `JSON_CONFIG_PATH`,
/repo/src/CMakeLists.txt:32) is read, then the arguments, then -- in `hls` mode -- the latency file; all of it before anything is written.  Files are
strings of bytes: characters below 256.  An exception that is not `CLI::ParseError` ends the process. -/
def process (D : Doubles) (E : Env C) (b : String → Option Bool) (sim : String → String → Files → Except Fault (Nat × Files)) (home : String)
    (name : String) (w : World) (g : KGraph) (args : List String) (fs : Files) : Except Abort (Nat × Files) :=
  match Json.startup D ((fs home).map bytes) with
  | .error f => .error (.json f)
  | .ok cfg => match Cli.commandLine b cfg args with
    | .stop e => .ok (e.code, fs)
    | .hls config o => match latencies D fs config with
      | .error f => .error (.json f)
      | .ok file => orAbort (hlsMain (backend E name w g file) o fs)
    | .sim inp out => orAbort (sim inp out fs)

/-! ### Specification -/

/-- The latencies the units get: those of the file the options name; 1 cycle, and 0 for operations without a unit, if none is named or it is not there. -/
inductive Loaded (D : Doubles) (fs : Files) (is : List Item) (lat : Config.Kind → Bool → Nat) : Prop
  | default : (∀ v, Item.config v ∈ is → fs (v.getD "latency.json") = none) → (∀ k f, lat k f = if (fieldName k f).isSome then 1 else 0) → Loaded D fs is lat
  | file {v : Option String} {s : String} {x : Json.Val} : Item.config v ∈ is → fs (v.getD "latency.json") = some s → IsFile D.finite x (bytes s) →
      FieldNumbers D x (bytes "dfcir") → FieldNumbers D x (bytes "external") → (∀ k f, Latency D x k f (lat k f)) → Loaded D fs is lat

/-- A latency file that cannot be used. -/
def Unusable (D : Doubles) (s : String) : Prop :=
  ¬∃ x, IsFile D.finite x (bytes s) ∧ FieldNumbers D x (bytes "dfcir") ∧ FieldNumbers D x (bytes "external")

/-! ### Proofs -/

section
variable {D : Doubles} {F : FloatOps} {w : World} {g : KGraph} {E : Env C} {b : String → Option Bool} {home : String} {a a' : Option String}
  {sim : String → String → Files → Except Fault (Nat × Files)} {name : String} {is : List Item} {ls : List String} {fs : Files}

/-- The environment with one latency file. -/
def Env.withFile (E : Env C) (file : Option JsonDoc) : Env C := { E with config := fun _ => file }

theorem Env.Fair.withFile {E : Env C} (h : E.Fair w g) (file : Option JsonDoc) : (E.withFile file).Fair w g where
  graph := h.graph
  dot := h.dot
  buf := h.buf
  solve := h.solve
  arith := h.arith

theorem Delivered.withFile {E : Env C} {file : Option JsonDoc} {cells : Nat → Cell} {size code : Nat} {fs' : Files}
    (h : Delivered (E.withFile file) name w g is fs cells size code fs') : Delivered E name w g is fs cells size code fs' where
  exit := h.exit
  success := h.success
  firrtl := h.firrtl
  library := h.library
  verilog := h.verilog
  dot := h.dot
  dfcir := h.dfcir
  scheduled := h.scheduled
  others := h.others

theorem process_tool {cfg : Cli.SimConfig} {args : List String} {file : Option JsonDoc} (hs : Json.startup D ((fs home).map bytes) = .ok cfg)
    (hl : ∀ config o, Cli.commandLine b cfg args = .hls config o → latencies D fs config = .ok file) :
    process D E b sim home name w g args fs = orAbort (tool (E.withFile file) b cfg sim name w g args fs) := by
  unfold process tool Cli.program
  rw [hs]
  simp only
  cases hc : Cli.commandLine b cfg args with
  | stop e => rfl
  | sim inp out => rfl
  | hls config o =>
    simp only
    rw [hl config o hc]
    have : latencyFile (E.withFile file) config = file := by
      unfold latencyFile
      split
      · rename_i h
        have := hl config o hc
        unfold latencies at this
        rw [if_pos h] at this
        exact Except.ok.inj this
      · rfl
    rw [this]
    rfl

theorem latency_none (k : Config.Kind) (f : Bool) : unitLatency none k f = if (fieldName k f).isSome then 1 else 0 := by
  cases k <;> cases f <;> rfl

theorem config_ne (hw : WritesAll is ls) {v : Option String} (hv : Item.config v ∈ is) : v.getD "latency.json" ≠ "" := by
  induction hw with
  | nil => cases hv
  | cons hi _ ih =>
    rcases List.mem_cons.mp hv with e | h
    · subst e
      cases hi with
      | config hx =>
        cases hx with
        | bare => simp
        | next hp => exact hp.1
        | eq hp => exact hp
    · exact ih h

/-- The file the options lead to. -/
theorem loaded_file {lat : Config.Kind → Bool → Nat} {c : String} {o : Options} (hw : WritesAll is ls) (hm : Means Decimal is c o) (h : Loaded D fs is lat) :
    ∃ file : Option JsonDoc, (∀ k f, unitLatency file k f = lat k f) ∧ latencies D fs c = .ok file := by
  cases h with
  | default h1 h2 =>
    refine ⟨none, fun k f => by rw [h2, latency_none], ?_⟩
    unfold latencies
    by_cases hc : c = ""
    · rw [if_pos hc]
    · rw [if_neg hc]
      have : ∃ v, Item.config v ∈ is := by
        by_contra hn
        exact hc (hm.config_absent (not_exists.mp hn))
      obtain ⟨v, hv⟩ := this
      rw [hm.config_given v hv, h1 v hv]
  | @file v s x h1 h2 h3 h4 h5 h6 =>
    obtain ⟨d, hd⟩ := Json.docOf_ok.mpr ⟨x, h3, h4, h5⟩
    refine ⟨some d, fun k f => Json.latency_fun (Json.docOf_latency h3 hd k f) (h6 k f), ?_⟩
    unfold latencies
    rw [hm.config_given v h1, if_neg (config_ne hw h1), h2]
    simp only [hd]
    rfl

/-- The process on a documented command line of `hls` mode: the tool, with the files read. -/
theorem process_line {lat : Config.Kind → Bool → Nat} (hset : Settings D ((fs home).map bytes) a a') (hl : Line E.canOpen is ls)
    (hlat : Loaded D fs is lat) : ∃ file : Option JsonDoc, (∀ k f, unitLatency file k f = lat k f) ∧
      (∀ file', Configured (E.withFile file).config is file' → (∀ v, Item.config v ∉ is) ∧ file' = none ∨ file' = file) ∧
      process D E b sim home name w g ("hls" :: ls) fs = orAbort (tool (E.withFile file) b ⟨a, a'⟩ sim name w g ("hls" :: ls) fs) := by
  obtain ⟨c, o, hrun, hm⟩ := Cli.documented_runs b ⟨a, a'⟩ hl.writes hl.valid hl.noHelp
  obtain ⟨file, h1, h2⟩ := loaded_file hl.writes hm hlat
  refine ⟨file, h1, fun file' hc => ?_, process_tool (Json.startup_iff.mpr hset) fun config o' hc => ?_⟩
  · cases hc with
    | given _ _ => exact .inr rfl
    | absent h => exact .inl ⟨h, rfl⟩
  · rw [hrun] at hc
    cases hc
    exact h2

theorem loaded_absent {lat : Config.Kind → Bool → Nat} (h : Loaded D fs is lat) (hn : ∀ v, Item.config v ∉ is) (k : Config.Kind) (f : Bool) :
    unitLatency none k f = lat k f := by
  cases h with
  | default _ h => rw [h, latency_none]
  | file h => exact absurd h (hn _)

/-- What the options lead to has the latencies of the file. -/
theorem configured_lat {lat : Config.Kind → Bool → Nat} {file : Option JsonDoc} (hlat : Loaded D fs is lat) (h : ∀ k f, unitLatency file k f = lat k f)
    {file' : Option JsonDoc} (hc : (∀ v, Item.config v ∉ is) ∧ file' = none ∨ file' = file) (k : Config.Kind) (f : Bool) :
    unitLatency file' k f = lat k f := by
  rcases hc with ⟨hn, rfl⟩ | rfl
  · exact loaded_absent hlat hn k f
  · exact h k f

/-- **C90, `-a` and `-l`.**  The process, from the bytes of its configuration files: the design is one of those scheduled with exactly the latencies the
latency file gives, and the files named hold its texts. -/
theorem process_schedules {lat : Config.Kind → Bool → Nat} (hset : Settings D ((fs home).map bytes) a a') (hlat : Loaded D fs is lat)
    (h : Hist F Proper World.init w) (hf : Finished w g) (hE : E.Fair w g) (hl : Line E.canOpen is ls) (ha : Item.asap ∈ is ∨ Item.linear ∈ is)
    (H : ∀ file, (∀ k f, unitLatency file k f = lat k f) → HwHandled w.view (fun n => nodeLatency file (w.view n)) g.nodes) (hs : Signs w g) :
    ∃ file cells size code fs', (∀ k f, unitLatency file k f = lat k f) ∧ Scheduled w g file cells size ∧
      process D E b sim home name w g ("hls" :: ls) fs = .ok (code, fs') ∧ Delivered E name w g is fs cells size code fs' := by
  obtain ⟨file, h1, h2, h3⟩ := process_line (b := b) (sim := sim) (name := name) (w := w) (g := g) hset hl hlat
  obtain ⟨file', cells, size, code, fs', r1, r2, r3, r4⟩ := tool_schedules (E := E.withFile file) (b := b) (cfg := ⟨a, a'⟩) (sim := sim) (name := name)
    (fs := fs) h hf (hE.withFile file) hl ha (fun file' hc => H file' (configured_lat hlat h1 (h2 file' hc))) hs
  exact ⟨file', cells, size, code, fs', configured_lat hlat h1 (h2 file' r1), r2, by rw [h3, r3]; rfl, r4.withFile⟩

/-- **C90, `--pipeline` and no scheduler option.** -/
theorem process_pipelines {lat : Config.Kind → Bool → Nat} (hset : Settings D ((fs home).map bytes) a a') (hlat : Loaded D fs is lat)
    (h : Hist F Proper World.init w) (hf : Finished w g) (hE : E.Fair w g) (hl : Line E.canOpen is ls) {n : Nat} (hp : Pipelined is n) (hn : n < 2 ^ 31)
    (H : HwHandled w.view (fun _ => 0) g.nodes) (hof : ∀ n ∈ g.nodes, (w.view n).op ≠ .OFFSET) (hs : n = 0 ∨ SignsByWidth w.view g.nodes) :
    ∃ file cells size code fs', (∀ k f, unitLatency file k f = lat k f) ∧ Compiled w g file cells size ∧
      process D E b sim home name w g ("hls" :: ls) fs = .ok (code, fs') ∧ Delivered E name w g is fs cells size code fs' := by
  obtain ⟨file, h1, h2, h3⟩ := process_line (b := b) (sim := sim) (name := name) (w := w) (g := g) hset hl hlat
  obtain ⟨file', cells, size, code, fs', r1, r2, r3, r4⟩ := tool_pipelines (E := E.withFile file) (b := b) (cfg := ⟨a, a'⟩) (sim := sim) (name := name)
    (fs := fs) h hf (hE.withFile file) hl hp hn H hof hs
  exact ⟨file', cells, size, code, fs', configured_lat hlat h1 (h2 file' r1), r2, by rw [h3, r3]; rfl, r4.withFile⟩

/-- The process linked with the kernel whose constructor is `p`: as `ToolMakes`, with the files instead of what is read from them. -/
def ProcessMakes (p : Kernels.Build Unit) (any signed : Bool) (Good : (Nat → Cell) → Nat → Prop) : Prop :=
  ∃ w g, p World.init = .ok ((), w) ∧ Finished w g ∧
    ∀ (C : Type) (E : Env C) (D : Doubles) (b : String → Option Bool) (sim : String → String → Files → Except Fault (Nat × Files))
      (home name : String) (is : List Item) (ls : List String) (fs : Files) (a a' : Option String) (lat : Config.Kind → Bool → Nat),
      E.Fair w g → Line E.canOpen is ls → (Item.asap ∈ is ∨ Item.linear ∈ is ∨ any = true ∧ ∃ n, n < 2 ^ 31 ∧ Pipelined is n) →
      Settings D ((fs home).map bytes) a a' → Loaded D fs is lat →
      (signed = true → 0 < lat .add false ∧ 0 < lat .sub false ∧ 0 < lat .mul false) →
      ∃ cells size code fs', process D E b sim home name w g ("hls" :: ls) fs = .ok (code, fs') ∧ Delivered E name w g is fs cells size code fs' ∧
        Good cells size

/-- **C90, kernels.**  Everything C78 says of kernels holds of processes. -/
theorem ToolMakes.process {p : Kernels.Build Unit} {any signed : Bool} {Good : (Nat → Cell) → Nat → Prop} (h : ToolMakes p any signed Good) :
    ProcessMakes p any signed Good := by
  obtain ⟨w, g, h1, h2, h3⟩ := h
  refine ⟨w, g, h1, h2, fun C E D b sim home name is ls fs a a' lat hE hl ha hset hlat hs => ?_⟩
  obtain ⟨file, g1, g2, g3⟩ := process_line (b := b) (sim := sim) (name := name) (w := w) (g := g) hset hl hlat
  obtain ⟨cells, size, code, fs', r1, r2, r3⟩ := h3 C (E.withFile file) b ⟨a, a'⟩ sim name is ls fs (hE.withFile file) hl ha fun hsg file' hc => by
    have := configured_lat hlat g1 (g2 file' hc)
    unfold Flat.StagesGiven
    rw [this, this, this]
    exact hs hsg
  exact ⟨cells, size, code, fs', by rw [g3, r1]; rfl, r2.withFile, r3⟩

/-- **C90, unusable configuration.**  If the configuration file of the program is there and is not as `Settings` says, no argument helps -- not even
`--help` --: the process ends with an exception. -/
theorem process_unset (hset : ∀ a a', ¬ Settings D ((fs home).map bytes) a a') (args : List String) :
    process D E b sim home name w g args fs = .error (.json .exception) := by
  unfold process
  rw [Json.startup_throws hset]

/-- **C90, unusable latencies.**  If the latency file named is there and unusable, the process ends before anything is made. -/
theorem process_unusable (hset : Settings D ((fs home).map bytes) a a') (hl : Line E.canOpen is ls) {v : Option String} (hv : Item.config v ∈ is) {s : String}
    (hs : fs (v.getD "latency.json") = some s) (hu : Unusable D s) :
    ∃ f, process D E b sim home name w g ("hls" :: ls) fs = .error (.json f) := by
  obtain ⟨c, o, hrun, hm⟩ := Cli.documented_runs b ⟨a, a'⟩ hl.writes hl.valid hl.noHelp
  unfold process
  rw [Json.startup_iff.mpr hset]
  simp only [hrun]
  unfold latencies
  rw [hm.config_given v hv, if_neg (config_ne hl.writes hv), hs]
  simp only
  cases hd : Json.docOf D (bytes s) with
  | ok d => exact absurd (Json.docOf_ok.mp ⟨d, hd⟩) hu
  | error f => exact ⟨f, rfl⟩

/-- **C90, undocumented command lines.**  The process ends with exit code 1 and writes nothing, whatever the latency file. -/
theorem process_refused (hset : Settings D ((fs home).map bytes) a a') (hw : WritesAll is ls)
    (hn : ∀ v, Item.pipeline (some v) ∈ is → (∃ n, Decimal v n) ∨ NotNumber v) (hv : ¬Valid Decimal is) (hh : .help ∉ is) :
    process D E b sim home name w g ("hls" :: ls) fs = .ok (1, fs) := by
  unfold process
  rw [Json.startup_iff.mpr hset]
  simp only [Cli.undocumented_refused b ⟨a, a'⟩ hw hn hv hh]
  rfl

/-- The latency file plays no part in `sim` mode, and the paths come from the options or from the configuration file. -/
theorem process_sim (hset : Settings D ((fs home).map bytes) a a') {inp out : String} (hl : Vcd.SimLine ⟨a, a'⟩ ls inp out) :
    process D E b sim home name w g ("sim" :: ls) fs = orAbort (sim inp out fs) := by
  obtain ⟨⟨is, hw, hi, ho⟩⟩ := hl
  unfold process
  rw [Json.startup_iff.mpr hset]
  simp only [Cli.sim_documented b ⟨a, a'⟩ hw]
  rw [if_pos (by rcases hi with ⟨v, e, -⟩ | ⟨e, -⟩ <;> rcases ho with ⟨v', e', -⟩ | ⟨e', -⟩ <;> rw [e, e'] <;> simp)]
  simp only
  congr 2
  · rcases hi with ⟨v, e, h⟩ | ⟨e, h⟩ <;> rw [e, h] <;> rfl
  · rcases ho with ⟨v, e, h⟩ | ⟨e, h⟩ <;> rw [e, h] <;> rfl

/-- **C90, `sim` mode.**  As `Vcd.ToolSimulates`, with the files. -/
def ProcessSimulates (F : FloatOps) (p : Kernels.Build Unit) (ins : List (String × Nat)) (outs : List Flat.OutPort) : Prop :=
  ∃ w g, p World.init = .ok ((), w) ∧ Finished w g ∧
    ∀ G, Enumeration w g G → ∀ it, it.Perm g.nodes → ∀ (C : Type) (E : Env C) (D : Doubles) (b : String → Option Bool) (home name : String)
      (canOpen : String → Bool) (now : Vcd.Clock) (ls : List String) (a a' : Option String) (inp out : String) (fs : Files),
      Settings D ((fs home).map bytes) a a' → Vcd.SimLine ⟨a, a'⟩ ls inp out → inp ≠ out → canOpen out = true →
      ∀ (doc : List Block) (lines : List (List Char)), Renders doc lines → (∃ b ∈ doc, b ≠ []) → doc.length ≤ 200 → Flow.DocFits ins doc →
        fs inp = some (String.ofList (lines.flatMap (· ++ ['\n']))) →
        ∃ fs' t f, process D E b (Vcd.simMain F canOpen now w G it) home name w g ("sim" :: ls) fs = .ok (0, fs') ∧ fs' out = some (String.ofList t) ∧
          (∀ q, q ≠ out → fs' q = fs q) ∧ Vcd.read t = some f ∧ Vcd.endTime f.events = doc.length + 1 ∧
          ∀ o ∈ outs, Vcd.Shows f o.name.toList o.bits 0 (List.replicate o.bits 'x') ∧
            ∀ t : Nat, t < doc.length → o.start ≤ t → ∃ bits, BinText bits o.bits (BitVec.ofNat 64 (o.val (Flow.docPort doc) t).toNat) ∧
              Vcd.Shows f o.name.toList o.bits (t + 1) bits

theorem simulates_process {p : Kernels.Build Unit} {ins : List (String × Nat)} {outs : List Flat.OutPort} (h : Vcd.ToolSimulates F p ins outs) :
    ProcessSimulates F p ins outs := by
  obtain ⟨w, g, h1, h2, h3⟩ := h
  refine ⟨w, g, h1, h2, fun G hG it hit C E D b home name canOpen now ls a a' inp out fs hset hl hne ho doc lines hr hd hlen hfit hin => ?_⟩
  obtain ⟨fs', t, f, r1, r2, r3⟩ := h3 G hG it hit (Mod C) b ⟨a, a'⟩ (fun c => backend E name w g (latencyFile E c)) canOpen now ls inp out fs hl hne ho doc
    lines hr hd hlen hfit hin
  refine ⟨fs', t, f, ?_, r2, r3⟩
  rw [process_sim hset hl]
  unfold Cli.program at r1
  obtain ⟨⟨is, hw, hi, ho⟩⟩ := hl
  rw [Cli.sim_documented b ⟨a, a'⟩ hw, if_pos (by rcases hi with ⟨v, e, -⟩ | ⟨e, -⟩ <;> rcases ho with ⟨v', e', -⟩ | ⟨e', -⟩ <;> rw [e, e'] <;> simp)] at r1
  simp only at r1
  have e1 : ((Cli.inputs is).head?.map fun v => v.getD "sim.txt").getD (a.getD "") = inp := by
    rcases hi with ⟨v, e, h⟩ | ⟨e, h⟩ <;> rw [e, h] <;> rfl
  have e2 : ((Cli.outputs is).head?.map fun v => v.getD "sim_out.vcd").getD (a'.getD "") = out := by
    rcases ho with ⟨v, e, h⟩ | ⟨e, h⟩ <;> rw [e, h] <;> rfl
  rw [e1, e2] at r1
  rw [r1]
  rfl

end

end Verif.Whole
