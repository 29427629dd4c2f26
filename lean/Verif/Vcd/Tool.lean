import Verif.Vcd.Neat
import Verif.Cli.Modes
import Verif.Flow.SimTotal
import Verif.Flat.Simulate
/-
C79, continued: `sim` mode from the command line to the file.
-/
namespace Verif.Vcd
open Verif.Dfcxx Verif.Flow Verif.Driver Verif.Cli

/-! ### Specification -/

/-- The arguments `ls` are a documented command line of `sim` mode (README.md:206-212) with the input path `inp` and the output path `out`: each from its
option, `sim.txt` and `sim_out.vcd` if the option has no path, and from the configuration file if there is no option. -/
structure SimLine (cfg : SimConfig) (ls : List String) (inp out : String) : Prop where
  line : ∃ is, WritesSim is ls ∧
    ((∃ v, inputs is = [v] ∧ inp = v.getD "sim.txt") ∨ (inputs is = [] ∧ inp = cfg.inp.getD "")) ∧
    ((∃ v, outputs is = [v] ∧ out = v.getD "sim_out.vcd") ∨ (outputs is = [] ∧ out = cfg.out.getD ""))

/-- Names of streams that a dump can carry: each an identifier code or empty, none of the form the dump reserves, no two equal. -/
structure Names (w : World) (g : KGraph) : Prop where
  named : ∀ n ∈ g.nodes, (w.view n).name = "" ∨ Named (w.view n).name
  free : ∀ n ∈ g.nodes, ∀ k : Nat, (w.view n).name ≠ "node" ++ toString k
  distinct : ∀ m ∈ g.nodes, ∀ n ∈ g.nodes, (w.view m).name ≠ "" → (w.view m).name = (w.view n).name → m = n

/-! ### Proofs -/

theorem simLine_runs (b : String → Option Bool) {cfg : SimConfig} {ls : List String} {inp out : String} (h : SimLine cfg ls inp out) {M : Type}
    (B : String → Backend M) (sim : String → String → Files → Except Fault (Nat × Files)) (fs : Files) :
    program b cfg B sim ("sim" :: ls) fs = sim inp out fs := by
  obtain ⟨is, hw, hi, ho⟩ := h.line
  have hc := sim_documented b cfg hw
  unfold program
  have : commandLine b cfg ("sim" :: ls) = .sim inp out := by
    rw [hc]
    rcases hi with ⟨v, e1, rfl⟩ | ⟨e1, rfl⟩ <;> rcases ho with ⟨v', e2, rfl⟩ | ⟨e2, rfl⟩ <;> simp [e1, e2]
  rw [this]

theorem dec_printable (n : Nat) : ∀ c ∈ dec n, '!' ≤ c ∧ c ≤ '~' := by
  intro c hc
  have := dec_digit hc
  simp only [Char.isDigit, Bool.and_eq_true, decide_eq_true_eq, ge_iff_le] at this
  exact ⟨Nat.le_trans (by decide : ('!' : Char).val.toNat ≤ '0'.val.toNat) this.1, Nat.le_trans this.2 (by decide : ('9' : Char).val.toNat ≤ '~'.val.toNat)⟩

theorem named_node (k : Nat) : Named ("node" ++ toString k) := by
  have e : ("node" ++ toString k).toList = 'n' :: ("ode".toList ++ dec k) := by rw [String.toList_append]; rfl
  refine ⟨fun h => ?_, fun c hc => ?_, fun h => ?_⟩
  · rw [h] at e; cases e
  · rw [e] at hc
    rcases List.mem_cons.mp hc with rfl | hc
    · decide
    · rcases List.mem_append.mp hc with hc | hc
      · exact (by decide : ∀ c ∈ "ode".toList, '!' ≤ c ∧ c ≤ '~') c hc
      · exact dec_printable k c hc
  · rw [h] at e
    have := congrArg List.head? e
    rw [List.head?_cons] at this
    revert this; decide

section
variable {F : FloatOps} {w : World} {g : KGraph} {it : List Nat}

theorem Names.ids (hn : Names w g) (hit : it.Perm g.nodes) (hnd : it.Nodup) :
    ((genIds w.view it 0).map Prod.snd).Nodup ∧ (∀ n ∈ it, Named (idOf w.view it n)) ∧
      ∀ n ∈ it, (w.view n).name ≠ "" → idOf w.view it n = (w.view n).name := by
  refine ⟨vcd_ids_unique w.view it hnd (fun m hm n hn' => hn.distinct m (hit.mem_iff.mp hm) n (hit.mem_iff.mp hn'))
    (fun m hm => hn.free m (hit.mem_iff.mp hm)), fun n hmem => ?_, fun n hmem hne => ?_⟩
  · obtain ⟨h1, h2⟩ := genIds_named w.view it 0 _ (idOf_lookup w.view it hnd n hmem |> mem_of_lookup)
    simp only at h1 h2
    rcases hn.named n (hit.mem_iff.mp hmem) with e | e
    · obtain ⟨k, -, hk⟩ := h2 e
      rw [hk]; exact named_node k
    · rw [h1 e.1]; exact e
  · exact (genIds_named w.view it 0 _ (idOf_lookup w.view it hnd n hmem |> mem_of_lookup)).1 hne

theorem map_idOf (hnd : it.Nodup) : it.map (idOf w.view it) = (genIds w.view it 0).map Prod.snd := by
  have e : (genIds w.view it 0).map Prod.snd = ((genIds w.view it 0).map Prod.fst).map (idOf w.view it) := by
    rw [List.map_map]
    refine List.map_congr_left fun p hp => ?_
    have := lookup_of_mem (ids := genIds w.view it 0) (by rw [genIds_fst]; exact hnd) (n := p.1) (s := p.2) hp
    simp [idOf, this]
  rw [e, genIds_fst]

/-- **C79, every successful simulation.**  Whatever the input file: what is written is a value change dump that a reader accepts; it ends one past the
number of sections; every stream with a name is declared with its width, unknown at time 0, and has at time `i + 1` the value recorded in section `i`. -/
theorem simulation_reads {order : List Nat} (hn : Names w g) (hit : it.Perm g.nodes) (hnd : it.Nodup) {content : List Char} {vcd : Dfcxx.Vcd}
    (h : simulate F w.view order it content = .ok (some vcd)) (now : Clock) :
    ∃ f, read (text now vcd) = some f ∧ endTime f.events = vcd.ticks.length + 1 ∧
      ∀ n ∈ g.nodes, (w.view n).name ≠ "" → ∀ (i : Nat) (r : TickRec), vcd.ticks[i]? = some r →
        Shows f (w.view n).name.toList (w.view n).ty.totalBits 0 (List.replicate (w.view n).ty.totalBits 'x') ∧
        ∃ bits, ((w.view n).name, bits) ∈ r.values ∧ Shows f (w.view n).name.toList (w.view n).ty.totalBits (i + 1) bits := by
  obtain ⟨i1, i2, i3⟩ := hn.ids hit hnd
  obtain ⟨n1, n2⟩ := simulate_neat hnd h
  obtain ⟨c1, c2⟩ := simulate_ticks_consecutive F w.view order it content vcd h
  have hnames : ∀ r, NeatTick w.view it r → r.values.map Prod.fst = it.map (idOf w.view it) := by
    intro r hr
    unfold NeatTick at hr
    generalize hv : r.values = l at hr
    clear hv
    have key : ∀ (a : List Nat) (l : List (String × List Char)), List.Forall₂ (fun n (p : String × List Char) => p.1 = idOf w.view it n ∧ p.2.length = (w.view n).ty.totalBits ∧
        ∀ c ∈ p.2, c = '0' ∨ c = '1') a l → l.map Prod.fst = a.map (idOf w.view it) := by
      intro a l ha
      induction ha with
      | nil => rfl
      | cons hx _ ih => rw [List.map_cons, List.map_cons, hx.1, ih]
    exact key it _ hr
  have hdump : Dumpable vcd := by
    constructor
    · intro p hp
      rw [n2] at hp
      split at hp
      · cases hp
      · obtain ⟨n, hn', rfl⟩ := List.mem_map.mp hp
        exact i2 n hn'
    · intro r hr p hp
      obtain ⟨n, hn', e, -, hb⟩ := Flat.forall₂_mem_right (n1 r hr) hp
      rw [e]
      exact ⟨i2 n hn', hb⟩
  have hnd' : (vcd.vars.map Prod.fst).Nodup := by
    rw [n2]
    split
    · simp
    · rw [List.map_map]
      show (it.map (idOf w.view it)).Nodup
      rw [map_idOf hnd]; exact i1
  obtain ⟨f, f1, f2, f3⟩ := dump_shows now hdump hnd' c1 c2
  refine ⟨f, f1, f2, fun n hng hname i r hr => ?_⟩
  have hni := hit.mem_iff.mpr hng
  have hne : vcd.ticks ≠ [] := by intro e; rw [e] at hr; simp at hr
  have hv : ((w.view n).name, (w.view n).ty.totalBits) ∈ vcd.vars := by
    rw [n2, if_neg hne, List.mem_map]
    exact ⟨n, hni, by rw [i3 n hni hname]⟩
  obtain ⟨g1, g2⟩ := f3 _ hv
  refine ⟨g1, ?_⟩
  have hneat := n1 r (List.mem_of_getElem? hr)
  obtain ⟨q, hq, e, -⟩ := forall₂_mem_left hneat hni
  rw [i3 n hni hname] at e
  refine ⟨q.2, by rw [← e]; exact hq, g2 i r q.2 hr (by rw [← e]; exact hq) fun y hy => ?_⟩
  have hnv : (r.values.map Prod.fst).Nodup := by rw [hnames r hneat, map_idOf hnd]; exact i1
  have := List.inj_on_of_nodup_map hnv hy hq (by simpa using e.symm)
  exact congrArg Prod.snd this

/-- **C79, `sim` mode.**  A kernel built by any sensible history of API calls, finished, whose operators the simulator gets right (C59), with names a dump
can carry; a documented command line; an input file of 1 to 200 steps in the documented format that mentions the inputs and gives them values that fit.
The exit code is 0, no other file changes, and the output file is a value change dump in which every stream with a name has, unknown before, at time
`i + 1` the value the dataflow semantics gives it for step `i`. -/
theorem sim_mode {G : TopSort.Graph Nat} (h : Hist F Proper World.init w) (hf : Finished w g) (he : Enumeration w g G) {L : Nat → Nat}
    (S : ∀ n ∈ g.nodes, Supported w.view (L n) n) (A : ∀ n ∈ g.nodes, SimAgrees w.view n) (T : ∀ n ∈ g.nodes, SimTotal w.view n)
    (hk : ∀ n ∈ g.nodes, (w.view n).op = .IN → (w.view n).kind = .stream) (hn : Names w g) (hit : it.Perm g.nodes)
    {M : Type} (b : String → Option Bool) {cfg : SimConfig} (B : String → Backend M) (canOpen : String → Bool) (now : Clock) {ls : List String}
    {inp out : String} (hl : SimLine cfg ls inp out) (hio : inp ≠ out) (ho : canOpen out = true) (fs : Files)
    {doc : List Block} {lines : List (List Char)} (hdoc : Renders doc lines) (hne : ∃ b ∈ doc, b ≠ []) (hlen : doc.length ≤ 200)
    (hfile : fs inp = some (String.ofList (lines.flatMap (· ++ ['\n']))))
    (hfit : ∀ n ∈ g.nodes, (w.view n).op = .IN → DocFits [((w.view n).name, width (w.view n).ty)] doc) :
    ∃ fs' t f, program b cfg B (simMain F canOpen now w G it) ("sim" :: ls) fs = .ok (0, fs') ∧ fs' out = some (String.ofList t) ∧
      (∀ q, q ≠ out → fs' q = fs q) ∧ read t = some f ∧ endTime f.events = doc.length + 1 ∧
      ∀ n ∈ g.nodes, (w.view n).name ≠ "" →
        Shows f (w.view n).name.toList (w.view n).ty.totalBits 0 (List.replicate (w.view n).ty.totalBits 'x') ∧
        ∀ i < doc.length, ∃ bits v, Denotes F w.view (docTick doc i) n v ∧ BinText bits (w.view n).ty.totalBits v ∧
          Shows f (w.view n).name.toList (w.view n).ty.totalBits (i + 1) bits := by
  obtain ⟨order, s1, s2, s3, s4, s5⟩ := finished_kernel_is_processable h hf he
  have hito : it.Perm order := hit.trans s2.symm
  have hnd : it.Nodup := hito.nodup_iff.2 s3.nodup
  obtain ⟨order', t1, hacc⟩ := simulation_accepted h hf he S A T hk F
  rw [s1] at t1; cases t1
  obtain ⟨vcd, hv⟩ := hacc it hito doc lines hdoc hne hlen hfit
  have K : Comparable w.view L g.nodes :=
    ⟨fun n hn => s4 n (s2.mem_iff.mpr hn), fun n hn => s5 n (s2.mem_iff.mpr hn), S, A,
      fun n hn s hs => s2.mem_iff.mp (srcs_in_order s3 (s2.mem_iff.mpr hn) hs).1⟩
  have key : ∀ n ∈ g.nodes, (w.view n).op = .IN → ∀ t, _ := fun n hn ho t => docFits_tick (hfit n hn ho) (List.mem_singleton.mpr rfl) t
  have hP : PortsOK w.view g.nodes (docPort doc) := ⟨fun n hn ho t => (key n hn ho t).2, fun n hn ho hs => absurd (hk n hn ho) hs⟩
  have hv' := hv
  rw [simulate_file_eq_lines _ _ _ _ _ (renders_no_newline hdoc)] at hv'
  obtain ⟨-, d2, -, d4⟩ := simulate_document F w.view order it s3 s5 hito doc lines hdoc hne hlen
    (fun i _ => noWrap_of_agree K s2 hP (fun n hn ho => (key n hn ho i).1)) vcd hv'
  obtain ⟨f, f1, f2, f3⟩ := simulation_reads hn hit hnd hv now
  refine ⟨(fs.put out "").put out (String.ofList (text now vcd)), text now vcd, f, ?_, ?_, ?_, f1, by rw [f2, d2], fun n hng hname => ?_⟩
  · rw [simLine_runs b hl]
    unfold simMain
    rw [s1]
    simp only [hfile, ho, if_true]
    have hin : ((fs.put out "") inp).getD "" = String.ofList (lines.flatMap (· ++ ['\n'])) := by
      simp [Files.put, hio, hfile]
    rw [hin, String.toList_ofList, hv]
  · simp [Files.put]
  · intro q hq; simp [Files.put, hq]
  · have hni := hit.mem_iff.mpr hng
    have hvalue : ∀ i r, vcd.ticks[i]? = some r → ∀ bits, ((w.view n).name, bits) ∈ r.values →
        ∃ v, Denotes F w.view (docTick doc i) n v ∧ BinText bits (w.view n).ty.totalBits v := by
      intro i r hr bits hb
      obtain ⟨m, hmi, e, v, hd, hbt⟩ := Flat.forall₂_mem_right (d4 i r hr).2 hb
      obtain ⟨i1, -, i3⟩ := hn.ids hit hnd
      have hmn : m = n := Flat.idOf_inj hnd i1 hmi hni (by rw [← e, i3 n hni hname])
      subst hmn
      exact ⟨v, hd, hbt⟩
    have hpos : 0 < vcd.ticks.length := by
      rw [d2]
      obtain ⟨b, hb, -⟩ := hne
      exact List.length_pos_of_mem hb
    refine ⟨(f3 n hng hname 0 _ (List.getElem?_eq_getElem hpos)).1, fun i hi => ?_⟩
    have hi' : i < vcd.ticks.length := by rw [d2]; exact hi
    obtain ⟨-, bits, hb, hs⟩ := f3 n hng hname i _ (List.getElem?_eq_getElem hi')
    obtain ⟨v, hd, hbt⟩ := hvalue i _ (List.getElem?_eq_getElem hi') bits hb
    exact ⟨bits, v, hd, hbt, hs⟩

/-! ### When there is no dump -/

variable {G : TopSort.Graph Nat} {M : Type} {b : String → Option Bool} {cfg : SimConfig} {B : String → Backend M} {canOpen : String → Bool} {now : Clock}
  {ls : List String} {inp out : String} {fs : Files}

/-- An input file that does not exist: exit code 1, nothing changes. -/
theorem sim_without_input (h : Hist F Proper World.init w) (hf : Finished w g) (he : Enumeration w g G) (hl : SimLine cfg ls inp out)
    (hi : fs inp = none) : program b cfg B (simMain F canOpen now w G it) ("sim" :: ls) fs = .ok (1, fs) := by
  obtain ⟨order, s1, -⟩ := finished_kernel_is_processable h hf he
  rw [simLine_runs b hl]
  unfold simMain
  rw [s1]
  simp only [hi]

/-- **C79, a limit.**  An output file that cannot be opened is not noticed: the exit code is that of the simulation, and nothing is written. -/
theorem sim_unwritable_output (hl : SimLine cfg ls inp out) (ho : canOpen out = false) {code : Nat} {fs' : Files}
    (h : program b cfg B (simMain F canOpen now w G it) ("sim" :: ls) fs = .ok (code, fs')) : fs' = fs ∧
      ((∃ order s vcd, TopSort.topSort G = .ok order ∧ fs inp = some s ∧ simulate F w.view order it s.toList = .ok (some vcd)) → code = 0) := by
  rw [simLine_runs b hl] at h
  unfold simMain at h
  cases hg : TopSort.topSort G with
  | ok order =>
    rw [hg] at h
    simp only [ho, Bool.false_eq_true, if_false] at h
    cases hi : fs inp with
    | none =>
      rw [hi] at h; cases h
      exact ⟨rfl, by rintro ⟨_, _, _, -, e, -⟩; cases e⟩
    | some s =>
      rw [hi] at h
      simp only [Option.getD_some] at h
      split at h
      · cases h
      · rename_i hs; cases h
        refine ⟨rfl, ?_⟩
        rintro ⟨o, s', v, e1, e2, e3⟩
        cases e1; cases e2
        rw [hs] at e3; cases e3
      · cases h; exact ⟨rfl, fun _ => rfl⟩
  | _ => rw [hg] at h; cases h

/-- **C79, a limit.**  The same file for input and output: its contents are lost, nothing is simulated, and the exit code is 0. -/
theorem sim_same_file (h : Hist F Proper World.init w) (hf : Finished w g) (he : Enumeration w g G) (hl : SimLine cfg ls inp inp)
    (ho : canOpen inp = true) {s : String} (hi : fs inp = some s) :
    program b cfg B (simMain F canOpen now w G it) ("sim" :: ls) fs =
      .ok (0, (fs.put inp "").put inp (String.ofList (text now ⟨[], [], 1⟩))) := by
  obtain ⟨order, s1, -⟩ := finished_kernel_is_processable h hf he
  rw [simLine_runs b hl]
  unfold simMain
  rw [s1]
  simp only [hi, ho, if_true]
  have e : ((fs.put inp "") inp).getD "" = "" := by simp [Files.put]
  have hsim : simulate F w.view order it "".toList = .ok (some ⟨[], [], 1⟩) := by
    unfold simulate simulateLines
    rw [show getlines "".toList = [] from rfl, drvLoop_done F w.view order it [] _ 1 _ _ [] (readInput_nil _)]
    rfl
  rw [e, hsim]

/-- A simulation that fails: exit code 1 and an empty output file. -/
theorem sim_fails {order : List Nat} (hg : TopSort.topSort G = .ok order) (hl : SimLine cfg ls inp out) (hio : inp ≠ out) (ho : canOpen out = true)
    {s : String} (hi : fs inp = some s) (hs : simulate F w.view order it s.toList = .ok none) :
    program b cfg B (simMain F canOpen now w G it) ("sim" :: ls) fs = .ok (1, fs.put out "") := by
  rw [simLine_runs b hl]
  unfold simMain
  rw [hg]
  have e : ((fs.put out "") inp).getD "" = s := by simp [Files.put, hio, hi]
  simp only [hi, ho, if_true, e, hs]

end

end Verif.Vcd
