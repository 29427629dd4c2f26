import Verif.Cli.Props
/-
C75, continued: what a command line leads to (files and exit code); the mode `sim`; the arguments of the program itself.
-/
namespace Verif.Cli
open Verif.Config Verif.Driver Spec

/-! ### Files and exit codes -/

variable {M : Type}

theorem written_ne {is : List Item} {ls : List String} (hw : WritesAll is ls) {f : Format} {v : Option String} (h : Item.out f v ∈ is) :
    v.getD (outDefault f) ≠ "" := by
  induction hw with
  | nil => cases h
  | cons hi _ ih =>
    rcases List.mem_cons.mp h with e | h
    · subst e
      cases hi with
      | out hc hx =>
        cases hx with
        | bare => cases f <;> first | exact absurd rfl hc | simp [outDefault]
        | next hp => exact hp.1
        | eq hp => exact hp
      | outPlus hc => rw [Option.getD_some]; decide
    · exact ih h

theorem requested_iff {is : List Item} {ls : List String} (hw : WritesAll is ls) {config : String} {o : Options} (hm : Means Decimal is config o)
    {f : Format} {p : String} : requested o f = some p ↔ ∃ v, Item.out f v ∈ is ∧ p = v.getD (outDefault f) := by
  have given : ∀ v, Item.out f v ∈ is → requested o f = some (v.getD (outDefault f)) := by
    intro v h
    unfold requested
    rw [hm.path_given f v h]
    simp [written_ne hw h]
  constructor
  · intro h
    by_cases hx : ∃ v, Item.out f v ∈ is
    · obtain ⟨v, hv⟩ := hx
      rw [given v hv] at h
      exact ⟨v, hv, (Option.some.inj h).symm⟩
    · rw [not_exists] at hx
      by_cases hc : f = .COUNT
      · subst hc
        unfold requested at h
        rw [List.getElem?_eq_none (by rw [hm.six]; decide)] at h
        cases h
      · unfold requested at h
        rw [hm.path_absent f hc hx] at h
        simp at h
  · rintro ⟨v, hv, rfl⟩
    exact given v hv

/-- The tool as a whole: a documented command line naming different files that can be written.  Every file named holds the artefact of its format, or is
empty if a stage before it failed; no other file changes; and the exit code is 0 exactly if all that was needed succeeded. -/
theorem documented_writes (b : String → Option Bool) (cfg : SimConfig) (B : String → Backend M)
    (sim : String → String → Files → Except Dfcxx.Fault (Nat × Files)) (fs : Files)
    {is : List Item} {ls : List String} (hw : WritesAll is ls) (hv : Valid Decimal is) (hh : .help ∉ is)
    (hd : ∀ f g v w, Item.out f v ∈ is → Item.out g w ∈ is → v.getD (outDefault f) = w.getD (outDefault g) → f = g)
    (ho : ∀ c f v, Item.out f v ∈ is → (B c).canOpen (v.getD (outDefault f)) = true) :
    ∃ c o, Means Decimal is c o ∧
      ((B c).check = false → program b cfg B sim ("hls" :: ls) fs = .ok (1, fs)) ∧
      ((B c).check = true → ∀ m, (B c).build = .ok m → ∃ code fs', program b cfg B sim ("hls" :: ls) fs = .ok (code, fs') ∧
        (code = 0 ∨ code = 1) ∧ (code = 0 ↔ AllSucceed (B c) o m) ∧
        (∀ f v, Item.out f v ∈ is → fs' (v.getD (outDefault f)) = some ((artefact (B c) o m f).getD "")) ∧
        (∀ q, (∀ f v, Item.out f v ∈ is → q ≠ v.getD (outDefault f)) → fs' q = fs q)) := by
  obtain ⟨c, o, e, hm⟩ := documented_runs b cfg hw hv hh
  have hs : Sensible (B c) o := by
    refine ⟨hm.six, fun f g p hf hg => ?_, fun f p hf => ?_⟩
    · obtain ⟨v, hv, rfl⟩ := (requested_iff hw hm).mp hf
      obtain ⟨w, hw', ew⟩ := (requested_iff hw hm).mp hg
      exact hd f g v w hv hw' ew
    · obtain ⟨v, hv, rfl⟩ := (requested_iff hw hm).mp hf
      exact ho c f v hv
  obtain ⟨h1, _, h3⟩ := run_writes_artefacts (B c) o fs hs
  have hp : program b cfg B sim ("hls" :: ls) fs = hlsMain (B c) o fs := by unfold program; rw [e]
  refine ⟨c, o, hm, fun hc => by rw [hp]; exact h1 hc, fun hc m hb => ?_⟩
  obtain ⟨code, fs', g1, g2, g3, g4, g5⟩ := h3 hc m hb
  refine ⟨code, fs', hp.trans g1, g2, g3, fun f v h => g4 f _ ((requested_iff hw hm).mpr ⟨v, h, rfl⟩), fun q hq => g5 q fun f hf => ?_⟩
  obtain ⟨v, hv, e⟩ := (requested_iff hw hm).mp hf
  exact hq f v hv e

/-- What is not documented has exit code 1 and changes no file. -/
theorem undocumented_writes_nothing (b : String → Option Bool) (cfg : SimConfig) (B : String → Backend M)
    (sim : String → String → Files → Except Dfcxx.Fault (Nat × Files)) (fs : Files)
    {is : List Item} {ls : List String} (hw : WritesAll is ls)
    (hn : ∀ v, Item.pipeline (some v) ∈ is → (∃ n, Decimal v n) ∨ NotNumber v) (hv : ¬Valid Decimal is) (hh : .help ∉ is) :
    program b cfg B sim ("hls" :: ls) fs = .ok (1, fs) := by
  unfold program
  rw [undocumented_refused b cfg hw hn hv hh]
  rfl

/-! ### The mode `sim` -/

/-- An option of `sim` mode (README.md:208-212). -/
inductive SimItem
  | inp (v : Option String)
  | out (v : Option String)

inductive WritesSim : List SimItem → List String → Prop
  | nil : WritesSim [] []
  | inp {v l is ls} : Valued "in" v l → WritesSim is ls → WritesSim (.inp v :: is) (l ++ ls)
  | out {v l is ls} : Valued "out" v l → WritesSim is ls → WritesSim (.out v :: is) (l ++ ls)

def simEntry : SimItem → Opt × String
  | .inp v => (.simIn, v.getD "sim.txt")
  | .out v => (.simOut, v.getD "sim_out.vcd")

theorem nameOK_in : NameOK "in" := ⟨'i', "n".toList, by decide, by decide, by decide⟩
theorem nameOK_outName : NameOK "out" := ⟨'o', "ut".toList, by decide, by decide, by decide⟩

theorem ends_sim {is : List SimItem} {ls : List String} (hw : WritesSim is ls) : Ends ls := by
  cases hw with
  | nil => exact .inl rfl
  | inp h _ => exact ends_valued nameOK_in h _
  | out h _ => exact ends_valued nameOK_outName h _

theorem run_sim_items {is : List SimItem} {ls : List String} (hw : WritesSim is ls) : ∀ {s : St}, s.app = .sim →
    run s ls = { s with log := s.log ++ is.map simEntry } := by
  induction hw with
  | nil => intro s _; rw [run]; simp
  | inp h hs ih =>
    intro s hm
    rw [run_valued (o := .simIn) (by rw [hm]; simp) nameOK_in (by rw [hm]; decide) rfl h (ends_sim hs), ih (s := s.add _ _) hm]
    simp [St.add, simEntry, Opt.defaultStr]
  | out h hs ih =>
    intro s hm
    rw [run_valued (o := .simOut) (by rw [hm]; simp) nameOK_outName (by rw [hm]; decide) rfl h (ends_sim hs), ih (s := s.add _ _) hm]
    simp [St.add, simEntry, Opt.defaultStr]

def simFinal (is : List SimItem) : St := ⟨.sim, false, [.sim], [.sim], is.map simEntry, []⟩

theorem run_sim {is : List SimItem} {ls : List String} (hw : WritesSim is ls) : run .init ("sim" :: ls) = simFinal is := by
  rw [run_cons]
  have : step .init "sim" ls = (⟨.sim, false, [.sim], [.sim], [], []⟩, ls) := by
    have hr : recognize false [] true "sim" = .sub .sim := by decide
    unfold step
    simp only [St.init, Bool.false_eq_true, if_false, hr]
    rfl
  rw [this, run_sim_items hw rfl]
  simp [simFinal]

/-- The values given to an option of `sim`. -/
def inputs (is : List SimItem) : List (Option String) := is.filterMap fun | .inp v => some v | .out _ => none
def outputs (is : List SimItem) : List (Option String) := is.filterMap fun | .out v => some v | .inp _ => none

theorem results_simIn (is : List SimItem) : (simFinal is).results .simIn = (inputs is).map fun v => v.getD "sim.txt" := by
  unfold St.results simFinal inputs
  induction is with
  | nil => rfl
  | cons i is ih => cases i <;> simp_all [simEntry]

theorem results_simOut (is : List SimItem) : (simFinal is).results .simOut = (outputs is).map fun v => v.getD "sim_out.vcd" := by
  unfold St.results simFinal outputs
  induction is with
  | nil => rfl
  | cons i is ih => cases i <;> simp_all [simEntry]

theorem results_simNone (is : List SimItem) {o : Opt} (h1 : o ≠ .simIn) (h2 : o ≠ .simOut) : (simFinal is).results o = [] := by
  unfold St.results simFinal
  induction is with
  | nil => rfl
  | cons i is ih => cases i <;> simp_all [simEntry, Ne.symm h1, Ne.symm h2]

theorem sim_finish (b : String → Option Bool) (cfg : SimConfig) (is : List SimItem) :
    finish b cfg (simFinal is) =
      if (inputs is).length ≤ 1 ∧ (outputs is).length ≤ 1 then
        .sim (((inputs is).head?.map fun v => v.getD "sim.txt").getD (cfg.inp.getD ""))
          (((outputs is).head?.map fun v => v.getD "sim_out.vcd").getD (cfg.out.getD ""))
      else .stop .error := by
  have hn : ∀ {o : Opt}, o ≠ .simIn → o ≠ .simOut → (simFinal is).results o = [] := results_simNone is
  have hver : versionStop b (simFinal is) = none := by unfold versionStop; rw [hn (o := .version) nofun nofun]; rfl
  have hhelp : wantsHelp (simFinal is) = false := by
    unfold wantsHelp
    rw [hn (o := .help .root) nofun nofun, hn (o := .helpAll) nofun nofun]
    have : (simFinal is).listed = [.sim] := rfl
    rw [this]
    simp [hn (o := .help .sim) nofun nofun]
  have hreq : badRequirements (simFinal is) = false := rfl
  have hmis : (simFinal is).missing = [] := rfl
  have hused : (simFinal is).used.contains .hls = false := rfl
  have hbad : badValues (simFinal is) = !decide ((inputs is).length ≤ 1 ∧ (outputs is).length ≤ 1) := by
    unfold badValues
    rw [hn (o := .pipeline) nofun nofun]
    have hf : (formats.any fun f => decide (1 < ((simFinal is).results (.out f)).length)) = false := by
      rw [List.any_eq_false]
      intro f _
      rw [hn (o := .out f) nofun nofun]
      simp
    rw [hf]
    simp only [List.any_cons, List.any_nil, hn (o := .config) nofun nofun, hn (o := .pipeline) nofun nofun, results_simIn, results_simOut,
      List.length_map, List.length_nil, Nat.not_lt_zero, decide_false, Bool.false_or, Bool.or_false]
    by_cases h1 : (inputs is).length ≤ 1 <;> by_cases h2 : (outputs is).length ≤ 1 <;> simp [h1, h2]
    all_goals omega
  unfold finish
  rw [hver, hbad, hhelp, hreq, hmis, hused]
  by_cases h : (inputs is).length ≤ 1 ∧ (outputs is).length ≤ 1
  · simp only [h, and_self, decide_true, Bool.not_true, Bool.false_eq_true, if_false, List.isEmpty_nil, if_true]
    unfold St.value
    rw [results_simIn, results_simOut, List.head?_map, List.head?_map]
  · simp [h]

/-- In `sim` mode the paths are those given, `sim.txt` and `sim_out.vcd` where an option has no path, and those of the configuration file where
there is no option; giving an option twice is an error. -/
theorem sim_documented (b : String → Option Bool) (cfg : SimConfig) {is : List SimItem} {ls : List String} (hw : WritesSim is ls) :
    commandLine b cfg ("sim" :: ls) =
      if (inputs is).length ≤ 1 ∧ (outputs is).length ≤ 1 then
        .sim (((inputs is).head?.map fun v => v.getD "sim.txt").getD (cfg.inp.getD ""))
          (((outputs is).head?.map fun v => v.getD "sim_out.vcd").getD (cfg.out.getD ""))
      else .stop .error := by
  unfold commandLine
  rw [run_sim hw, sim_finish]

/-! ### The arguments of the program itself -/

/-- The three general arguments (README.md:174). -/
inductive General : String → Stop → Prop
  | h : General "-h" .help
  | help : General "--help" .help
  | H : General "-H" .help
  | helpAll : General "--help-all" .help
  | v : General "-v" .version
  | version : General "--version" .version

/-- What a general argument leaves. -/
theorem run_general {g : String} {e : Stop} (hg : General g e) : ∃ o, (o = .help .root ∨ o = .helpAll ∨ o = .version) ∧ (e = .version ↔ o = .version) ∧
    (e = .help ↔ o ≠ .version) ∧ ∀ rest, run .init (g :: rest) = run ⟨.root, false, [], [], [(o, "true")], []⟩ rest := by
  cases hg with
  | h => exact ⟨.help .root, by simp, by simp, by simp, fun rest => by rw [run_cons]; rfl⟩
  | help => exact ⟨.help .root, by simp, by simp, by simp, fun rest => by rw [run_cons]; rfl⟩
  | H => exact ⟨.helpAll, by simp, by simp, by simp, fun rest => by rw [run_cons]; rfl⟩
  | helpAll => exact ⟨.helpAll, by simp, by simp, by simp, fun rest => by rw [run_cons]; rfl⟩
  | v => exact ⟨.version, by simp, by simp, by simp, fun rest => by rw [run_cons]; rfl⟩
  | version => exact ⟨.version, by simp, by simp, by simp, fun rest => by rw [run_cons]; rfl⟩

/-- The state after a general argument and a line in `hls` mode. -/
def generalFinal (o : Opt) (is : List Item) : St :=
  ⟨.hls, false, [.hls], [.hls], (o, "true") :: is.filterMap entry, is.filterMap unwanted⟩

theorem run_general_hls {is : List Item} {ls : List String} (hw : WritesAll is ls) (o : Opt) :
    run ⟨.root, false, [], [], [(o, "true")], []⟩ ("hls" :: ls) = generalFinal o is := by
  rw [run_cons]
  have : step ⟨.root, false, [], [], [(o, "true")], []⟩ "hls" ls = (⟨.hls, false, [.hls], [.hls], [(o, "true")], []⟩, ls) := by
    have hr : recognize false [] true "hls" = .sub .hls := by decide
    unfold step
    simp only [Bool.false_eq_true, if_false, hr]
    rfl
  rw [this, run_items hw rfl]
  simp [generalFinal]

theorem general_results {o : Opt} {is : List Item} {o' : Opt} (h : o' ≠ o) : (generalFinal o is).results o' = (final is).results o' := by
  unfold St.results generalFinal final
  simp [Ne.symm h]

/-- A general argument before a mode: the help or the version is printed with exit code 0, and nothing runs. -/
theorem general_stops (b : String → Option Bool) (cfg : SimConfig) (hb : b "true" = some true) {g : String} {e : Stop} (hg : General g e)
    {is : List Item} {ls : List String} (hw : WritesAll is ls) (hv : WellGiven Decimal is) :
    commandLine b cfg (g :: "hls" :: ls) = .stop e ∧ commandLine b cfg [g] = .stop e := by
  obtain ⟨o, ho, hev, heh, hrun⟩ := run_general hg
  unfold commandLine
  rw [hrun, hrun, run_general_hls hw, run]
  by_cases hver : o = .version
  · obtain rfl := hver
    rw [hev.mpr rfl]
    constructor
    · unfold finish versionStop
      have : (generalFinal .version is).results .version = ["true"] := by
        have h := no_other (is := is) (o := .version) (by simp)
        unfold St.results final at h
        unfold St.results generalFinal
        rw [List.filter_cons_of_pos (by simp), List.map_cons, h]
      rw [this]
      simp [hb]
    · unfold finish versionStop
      have : (St.mk .root false [] [] [(.version, "true")] []).results .version = ["true"] := by simp [St.results]
      rw [this]
      simp [hb]
  · rw [heh.mpr hver]
    have hx : o = .help .root ∨ o = .helpAll := by
      rcases ho with h | h | h
      · exact .inl h
      · exact .inr h
      · exact absurd h hver
    constructor
    · have h1 : versionStop b (generalFinal o is) = none := by
        unfold versionStop
        rw [general_results (Ne.symm hver), no_other (by simp)]
        rfl
      have h2 : badValues (generalFinal o is) = false := by
        have := (badValues_iff (num := Decimal) (fun _ _ => stagesOf_decimal) fun v h => .inl (hv.number v h)).mpr hv
        unfold badValues at this ⊢
        have hne : ∀ o', (o' = .config ∨ o' = .pipeline ∨ o' = .simIn ∨ o' = .simOut ∨ ∃ f, o' = .out f) → o' ≠ o := by
          rintro o' h rfl
          rcases hx with rfl | rfl <;> rcases h with h | h | h | h | ⟨_, h⟩ <;> cases h
        simp only [List.any_cons, List.any_nil, general_results (hne .config (by simp)), general_results (hne .pipeline (by simp)),
          general_results (hne .simIn (by simp)), general_results (hne .simOut (by simp)),
          fun f => general_results (is := is) (hne (.out f) (by simp))] at this ⊢
        exact this
      have h3 : wantsHelp (generalFinal o is) = true := by
        unfold wantsHelp
        have : (generalFinal o is).listed = [.hls] := rfl
        rw [this]
        have hne : ((generalFinal o is).results o).isEmpty = false := by
          unfold St.results generalFinal
          simp
        rcases hx with rfl | rfl <;> simp_all
      unfold finish
      rw [h1, h2, h3]
      rfl
    · rcases hx with rfl | rfl <;> rfl

end Verif.Cli
