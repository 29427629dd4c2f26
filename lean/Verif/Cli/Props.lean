import Verif.Cli.Number
import Verif.Driver.Props
/-
C75: the command line is understood as documented.
-/
namespace Verif.Cli
open Verif.Config Verif.Driver Spec

/-! ### Reading the items -/

/-- The result an item leaves. -/
def entry : Item → Option (Opt × String)
  | .asap => some (.asap, "true")
  | .linear => some (.linear, "true")
  | .help => some (.help .hls, "true")
  | .config v => some (.config, v.getD "latency.json")
  | .pipeline v => some (.pipeline, v.getD "0")
  | .out f v => some (.out f, v.getD (outDefault f))
  | .unknown _ => none

def unwanted : Item → Option String
  | .unknown t => some t
  | _ => none

/-- The state after an item. -/
def effect (s : St) (i : Item) : St :=
  { s with log := s.log ++ (entry i).toList, missing := s.missing ++ (unwanted i).toList }

theorem nameOK_config : NameOK "config" := ⟨'c', "onfig".toList, by decide, by decide, by decide⟩
theorem nameOK_pipeline : NameOK "pipeline" := ⟨'p', "ipeline".toList, by decide, by decide, by decide⟩
theorem nameOK_help : NameOK "help" := ⟨'h', "elp".toList, by decide, by decide, by decide⟩
theorem nameOK_out {f : Format} (h : f ≠ .COUNT) : NameOK (outName f) := by
  cases f with
  | COUNT => exact absurd rfl h
  | SystemVerilog => exact ⟨'o', "ut-sv".toList, by decide, by decide, by decide⟩
  | SVLibrary => exact ⟨'o', "ut-sv-lib".toList, by decide, by decide, by decide⟩
  | UnscheduledDFCIR => exact ⟨'o', "ut-dfcir".toList, by decide, by decide, by decide⟩
  | ScheduledDFCIR => exact ⟨'o', "ut-scheduled-dfcir".toList, by decide, by decide, by decide⟩
  | FIRRTL => exact ⟨'o', "ut-firrtl".toList, by decide, by decide, by decide⟩
  | DOT => exact ⟨'o', "ut-dot".toList, by decide, by decide, by decide⟩

theorem nameOK_alpha {n : String} {c : Char} {r : List Char} (h : n.toList = c :: r) (ha : c.isAlpha = true) (he : '=' ∉ r) : NameOK n := by
  have hne : ∀ d : Char, d.isAlpha = false → c ≠ d := fun d hd e => by rw [e, hd] at ha; cases ha
  refine ⟨c, r, h, ?_, ?_⟩
  · unfold validFirst
    simp [hne '-' (by decide), hne '!' (by decide), hne ' ' (by decide), hne '\n' (by decide)]
  · simp only [List.mem_cons, not_or]
    exact ⟨fun e => hne '=' (by decide) e.symm, he⟩

theorem unknown_name {n : String} (h : n ∉ documented) : ((longNames .hls).find? fun e => e.1.toList == n.toList) = none := by
  rw [List.find?_eq_none]
  intro e he hx
  rw [beq_iff_eq] at hx
  have hn : e.1 = n := by rw [← String.ofList_toList (s := e.1), hx, String.ofList_toList]
  apply h
  rw [← hn]
  simp only [longNames, List.mem_cons, List.not_mem_nil, or_false] at he
  rcases he with rfl | rfl | rfl | rfl | rfl | rfl | rfl | rfl | rfl <;> decide

theorem run_flag {s : St} (hm : s.app = .hls) {c : Char} {o : Opt} (hc : c.isAlpha = true)
    (hf : ((shortNames .hls).find? fun e => e.1 == c) = some (c, o)) (rest : List String) :
    run s (String.ofList ['-', c] :: rest) = run (s.add o "true") rest := by
  rw [run_cons, step_short (by rw [hm]; simp) (recognize_shortFlag hc _ _ _)]
  unfold parseShort
  rw [hm, hf]
  rfl

/-- One item, in any way of writing it. -/
theorem run_item {s : St} (hm : s.app = .hls) {i : Item} {l : List String} (hw : Writes i l) {rest : List String} (hr : Ends rest) :
    run s (l ++ rest) = run (effect s i) rest := by
  have hroot : s.app ≠ .root := by rw [hm]; simp
  have heff : ∀ {o v}, entry i = some (o, v) → unwanted i = none → effect s i = s.add o v := by
    intro o v h1 h2
    unfold effect St.add
    rw [h1, h2]
    simp
  cases hw with
  | asap => rw [heff rfl rfl]; exact run_flag hm (c := 'a') (o := .asap) (by decide) (by decide) rest
  | linear => rw [heff rfl rfl]; exact run_flag hm (c := 'l') (o := .linear) (by decide) (by decide) rest
  | shortHelp => rw [heff rfl rfl]; exact run_flag hm (c := 'h') (o := .help .hls) (by decide) (by decide) rest
  | help =>
    rw [List.singleton_append, run_cons, step_long hroot (t := "--help") (recognize_long nameOK_help _ _ _), heff rfl rfl]
    unfold parseLong
    rw [hm]
    rfl
  | config h =>
    rw [run_valued (o := .config) hroot nameOK_config (by rw [hm]; decide) rfl h hr, heff rfl rfl]
    rfl
  | pipeline h =>
    rw [run_valued (o := .pipeline) hroot nameOK_pipeline (by rw [hm]; decide) rfl h hr, heff rfl rfl]
    rfl
  | out hc h =>
    rename_i f v
    rw [run_valued (o := .out f) hroot (nameOK_out hc) (by rw [hm]; cases f <;> first | exact absurd rfl hc | decide) rfl h hr, heff rfl rfl]
    cases f <;> first | exact absurd rfl hc | rfl
  | pipelinePlus =>
    rw [show (["--pipeline", "++"] : List String) = ["--" ++ "pipeline", "++"] from rfl,
      run_plus (o := .pipeline) hroot nameOK_pipeline (by rw [hm]; decide) rfl rfl hr, heff rfl rfl]
    rfl
  | outPlus hc =>
    rename_i f
    rw [run_plus (o := .out f) hroot (nameOK_out hc) (by rw [hm]; cases f <;> first | exact absurd rfl hc | decide) rfl rfl hr, heff rfl rfl]
    rfl
  | unknown h =>
    have hu : ∀ t, effect s (.unknown t) = { s with missing := s.missing ++ [t] } := by
      intro t; simp [effect, entry, unwanted]
    rw [List.singleton_append, run_cons]
    cases h with
    | long h1 h2 h3 h4 =>
      rw [step_long hroot (recognize_long (nameOK_alpha h1 h2 h3) _ _ _), hu]
      unfold parseLong
      rw [hm, unknown_name h4]
    | longEq h1 h2 h3 h4 =>
      rw [step_long hroot (recognize_longEq (nameOK_alpha h1 h2 h3) _ _ _), hu]
      unfold parseLong
      rw [hm, unknown_name h4]
    | short h1 h2 h3 h4 =>
      rename_i c
      rw [step_short hroot (recognize_shortFlag h1 _ _ _), hu]
      unfold parseShort
      have : ((shortNames .hls).find? fun e => e.1 == c) = none := by
        simp [shortNames, Ne.symm h2, Ne.symm h3, Ne.symm h4]
      rw [hm, this]

theorem ends_item {i : Item} {l : List String} (hw : Writes i l) (r : List String) : Ends (l ++ r) := by
  cases hw with
  | asap => exact ends_short (c := 'a') (by decide) r
  | linear => exact ends_short (c := 'l') (by decide) r
  | shortHelp => exact ends_short (c := 'h') (by decide) r
  | help => exact ends_long nameOK_help r
  | config h => exact ends_valued nameOK_config h r
  | pipeline h => exact ends_valued nameOK_pipeline h r
  | out hc h => exact ends_valued (nameOK_out hc) h r
  | pipelinePlus => exact ends_long nameOK_pipeline _
  | outPlus hc => exact ends_long (nameOK_out hc) _
  | unknown h =>
    cases h with
    | long h1 h2 h3 _ => exact ends_long (nameOK_alpha h1 h2 h3) r
    | longEq h1 h2 h3 _ => exact ends_longEq (nameOK_alpha h1 h2 h3) r
    | short h1 _ _ _ => exact ends_short h1 r

theorem ends_items_then {is : List Item} {ls : List String} (hw : WritesAll is ls) {rest : List String} (hr : Ends rest) : Ends (ls ++ rest) := by
  cases hw with
  | nil => exact hr
  | cons h _ => rw [List.append_assoc]; exact ends_item h _

theorem run_items_then {is : List Item} {ls : List String} (hw : WritesAll is ls) {rest : List String} (hr : Ends rest) : ∀ {s : St}, s.app = .hls →
    run s (ls ++ rest) = run { s with log := s.log ++ is.filterMap entry, missing := s.missing ++ is.filterMap unwanted } rest := by
  induction hw with
  | nil => intro s _; simp
  | cons h hs ih =>
    intro s hm
    rename_i i l is ls
    rw [List.append_assoc, run_item hm h (ends_items_then hs hr), ih (s := effect s i) hm]
    unfold effect
    cases h1 : entry i <;> cases h2 : unwanted i <;> simp [h1, h2]

theorem run_items {is : List Item} {ls : List String} (hw : WritesAll is ls) {s : St} (hm : s.app = .hls) :
    run s ls = { s with log := s.log ++ is.filterMap entry, missing := s.missing ++ is.filterMap unwanted } := by
  have := run_items_then hw (rest := []) (.inl rfl) hm
  rw [List.append_nil] at this
  rw [this, run]

/-- The state at the end of the line. -/
def final (is : List Item) : St := ⟨.hls, false, [.hls], [.hls], is.filterMap entry, is.filterMap unwanted⟩

theorem run_hls {is : List Item} {ls : List String} (hw : WritesAll is ls) : run .init ("hls" :: ls) = final is := by
  rw [run_cons]
  have : step .init "hls" ls = (⟨.hls, false, [.hls], [.hls], [], []⟩, ls) := by
    have hr : recognize false [] true "hls" = .sub .hls := by decide
    unfold step
    simp only [St.init, Bool.false_eq_true, if_false, hr]
    rfl
  rw [this, run_items hw rfl]
  simp [final]

/-! ### What is found at the end -/

theorem mem_results {is : List Item} {o : Opt} {x : String} : x ∈ (final is).results o ↔ ∃ i ∈ is, entry i = some (o, x) := by
  unfold St.results final
  simp only [List.mem_map, List.mem_filter, List.mem_filterMap, beq_iff_eq]
  constructor
  · rintro ⟨⟨a, b⟩, ⟨⟨i, hi, he⟩, h⟩, h'⟩
    simp only at h h'
    subst h; subst h'
    exact ⟨i, hi, he⟩
  · rintro ⟨i, hi, he⟩
    exact ⟨(o, x), ⟨⟨i, hi, he⟩, rfl⟩, rfl⟩

theorem length_results (o : Opt) (p : Item → Bool) (hp : ∀ i, p i = true ↔ ∃ x, entry i = some (o, x)) (is : List Item) :
    ((final is).results o).length = times p is := by
  unfold St.results final times
  simp only [List.length_map]
  induction is with
  | nil => rfl
  | cons i is ih =>
    by_cases h : p i = true
    · obtain ⟨x, hx⟩ := (hp i).mp h
      rw [List.filterMap_cons_some hx, List.filter_cons_of_pos (by simp), List.filter_cons_of_pos h]
      simp only [List.length_cons]
      rw [← ih]
    · rw [List.filter_cons_of_neg h, ← ih]
      cases he : entry i with
      | none => rw [List.filterMap_cons_none he]
      | some e =>
        rw [List.filterMap_cons_some he, List.filter_cons_of_neg]
        intro hx
        rw [beq_iff_eq] at hx
        obtain ⟨a, b⟩ := e
        exact h ((hp i).mpr ⟨b, by rw [he]; simp only at hx; rw [hx]⟩)

theorem isConfig_iff (i : Item) : i.isConfig = true ↔ ∃ x, entry i = some (.config, x) := by
  cases i <;> simp [Item.isConfig, entry]

theorem isPipeline_iff (i : Item) : i.isPipeline = true ↔ ∃ x, entry i = some (.pipeline, x) := by
  cases i <;> simp [Item.isPipeline, entry]

theorem isOut_iff (f : Format) (i : Item) : i.isOut f = true ↔ ∃ x, entry i = some (.out f, x) := by
  cases i with
  | out g v =>
    simp only [Item.isOut, entry, beq_iff_eq, Option.some.injEq, Prod.mk.injEq, Opt.out.injEq, exists_eq_right']
    exact eq_comm
  | _ => simp [Item.isOut, entry]

theorem results_nil {is : List Item} {o : Opt} (h : ∀ i ∈ is, ∀ x, entry i ≠ some (o, x)) : (final is).results o = [] := by
  rw [List.eq_nil_iff_forall_not_mem]
  intro x hx
  obtain ⟨i, hi, he⟩ := mem_results.mp hx
  exact h i hi x he

theorem results_isEmpty {is : List Item} {o : Opt} : ((final is).results o).isEmpty = true ↔ ∀ i ∈ is, ∀ x, entry i ≠ some (o, x) := by
  rw [List.isEmpty_iff]
  constructor
  · intro h i hi x he
    have := mem_results.mpr ⟨i, hi, he⟩
    rw [h] at this
    cases this
  · exact results_nil

theorem value_given {is : List Item} {o : Opt} {x before : String} (h1 : ((final is).results o).length ≤ 1) {i : Item} (hi : i ∈ is)
    (he : entry i = some (o, x)) : (final is).value o before = x := by
  have hx := mem_results.mpr ⟨i, hi, he⟩
  unfold St.value
  match hr : (final is).results o, h1, hx with
  | [y], _, hx => simp only [List.mem_singleton] at hx; simp [hx]

theorem value_absent {is : List Item} {o : Opt} {before : String} (h : ∀ i ∈ is, ∀ x, entry i ≠ some (o, x)) :
    (final is).value o before = before := by
  unfold St.value
  rw [results_nil h]
  rfl

theorem no_pipeline {is : List Item} : (∀ i ∈ is, ∀ x, entry i ≠ some (.pipeline, x)) ↔ ∀ v, Item.pipeline v ∉ is := by
  constructor
  · intro h v hv; exact h _ hv _ rfl
  · intro h i hi x he
    cases i <;> simp [entry] at he
    exact h _ hi

theorem no_config {is : List Item} : (∀ i ∈ is, ∀ x, entry i ≠ some (.config, x)) ↔ ∀ v, Item.config v ∉ is := by
  constructor
  · intro h v hv; exact h _ hv _ rfl
  · intro h i hi x he
    cases i <;> simp [entry] at he
    exact h _ hi

theorem no_out {is : List Item} {f : Format} : (∀ i ∈ is, ∀ x, entry i ≠ some (.out f, x)) ↔ ∀ v, Item.out f v ∉ is := by
  constructor
  · intro h v hv; exact h _ hv _ rfl
  · intro h i hi x he
    cases i <;> simp [entry] at he
    obtain ⟨rfl, _⟩ := he
    exact h _ hi

theorem no_asap {is : List Item} : (∀ i ∈ is, ∀ x, entry i ≠ some (.asap, x)) ↔ Item.asap ∉ is := by
  constructor
  · intro h hv; exact h _ hv _ rfl
  · intro h i hi x he
    cases i <;> simp [entry] at he
    exact h hi

theorem no_linear {is : List Item} : (∀ i ∈ is, ∀ x, entry i ≠ some (.linear, x)) ↔ Item.linear ∉ is := by
  constructor
  · intro h hv; exact h _ hv _ rfl
  · intro h i hi x he
    cases i <;> simp [entry] at he
    exact h hi

theorem no_help {is : List Item} : (∀ i ∈ is, ∀ x, entry i ≠ some (.help .hls, x)) ↔ Item.help ∉ is := by
  constructor
  · intro h hv; exact h _ hv _ rfl
  · intro h i hi x he
    cases i <;> simp [entry] at he
    exact h hi

theorem no_other {is : List Item} {o : Opt} (h : o = .version ∨ o = .simIn ∨ o = .simOut ∨ o = .help .root ∨ o = .helpAll) :
    (final is).results o = [] := by
  apply results_nil
  intro i _ x he
  cases i <;> simp [entry] at he <;> rcases h with rfl | rfl | rfl | rfl | rfl <;> simp at he

/-- What the arguments of an option are, however they are written: the numbers of stages are written in decimal, or are no numbers. -/
def Numbers (num : String → Nat → Prop) (is : List Item) : Prop := ∀ v, Item.pipeline (some v) ∈ is → (∃ n, num v n) ∨ NotNumber v

theorem stagesOf_zero : stagesOf "0" = some 0 := by decide

theorem badValues_iff {num : String → Nat → Prop} (hnum : ∀ v n, num v n → stagesOf v = some n) {is : List Item} (hn : Numbers num is) :
    badValues (final is) = false ↔ WellGiven num is := by
  have e1 := length_results .config Item.isConfig isConfig_iff is
  have e2 := length_results .pipeline Item.isPipeline isPipeline_iff is
  have e3 := fun f => length_results (.out f) (Item.isOut f) (isOut_iff f) is
  have e4 : ((final is).results .simIn).length = 0 := by rw [no_other (by simp)]; rfl
  have e5 : ((final is).results .simOut).length = 0 := by rw [no_other (by simp)]; rfl
  unfold badValues
  simp only [Bool.or_eq_false_iff, List.any_cons, List.any_nil, decide_eq_false_iff_not, Bool.or_false, e1, e2, e4, e5, List.any_eq_false,
    e3, formats]
  constructor
  · rintro ⟨⟨⟨h1, h2, _⟩, h3⟩, h4⟩
    refine ⟨by omega, by omega, fun f hc => ?_, fun v hv => ?_⟩
    · cases f <;> first | exact absurd rfl hc | omega
    · rcases hn v hv with h | h
      · exact h
      · have := h4 v (mem_results.mpr ⟨_, hv, rfl⟩)
        rw [stagesOf_notNumber h] at this
        simp at this
  · intro h
    refine ⟨⟨⟨by have := h.config; omega, by have := h.pipeline; omega, by omega, by omega⟩, ?_⟩, ?_⟩
    · have := fun f hc => Nat.not_lt.mpr (h.outs f hc)
      exact ⟨this _ nofun, this _ nofun, this _ nofun, this _ nofun, this _ nofun, this _ nofun⟩
    intro x hx
    obtain ⟨i, hi, he⟩ := mem_results.mp hx
    cases i <;> simp [entry] at he
    rename_i v
    cases v with
    | none => simp only [Option.getD_none] at he; rw [← he, stagesOf_zero]; simp
    | some v =>
      simp only [Option.getD_some] at he
      obtain ⟨n, hn⟩ := h.number v hi
      rw [← he, hnum _ _ hn]
      simp

theorem no_count {is : List Item} {ls : List String} (hw : WritesAll is ls) {f : Format} {v : Option String} (h : Item.out f v ∈ is) :
    f ≠ .COUNT := by
  induction hw with
  | nil => cases h
  | cons hi _ ih =>
    rcases List.mem_cons.mp h with e | h
    · subst e
      cases hi with
      | out hc _ => exact hc
      | outPlus hc => exact hc
    · exact ih h

theorem wantsHelp_iff {is : List Item} : wantsHelp (final is) = false ↔ Item.help ∉ is := by
  unfold wantsHelp
  have h1 : (final is).results (.help .root) = [] := no_other (by simp)
  have h2 : (final is).results .helpAll = [] := no_other (by simp)
  have h3 : (final is).listed = [.hls] := rfl
  rw [← no_help, ← results_isEmpty, h1, h2, h3]
  simp

theorem isEmpty_false {is : List Item} {o : Opt} {i : Item} {x : String} (hi : i ∈ is) (he : entry i = some (o, x)) :
    ((final is).results o).isEmpty = false := by
  rw [Bool.eq_false_iff]
  intro h
  exact results_isEmpty.mp h i hi x he

/-- The requirements on the items of the two groups. -/
theorem badRequirements_iff {is : List Item} (hc : ∀ f v, Item.out f v ∈ is → f ≠ .COUNT) : badRequirements (final is) = false ↔
    (.asap ∈ is → .linear ∉ is ∧ ∀ v, .pipeline v ∉ is) ∧ (.linear ∈ is → ∀ v, .pipeline v ∉ is) ∧ ∃ f v, .out f v ∈ is := by
  unfold badRequirements
  have hu : (final is).used.contains .hls = true := rfl
  rw [hu, Bool.true_and, Bool.or_eq_false_iff, decide_eq_false_iff_not, List.all_eq_false]
  have ho : (∃ x ∈ formats, ¬((final is).results (.out x)).isEmpty = true) ↔ ∃ f v, Item.out f v ∈ is := by
    constructor
    · rintro ⟨f, _, h⟩
      by_contra hx
      apply h
      rw [results_isEmpty, no_out]
      intro v hv
      exact hx ⟨f, v, hv⟩
    · rintro ⟨f, v, h⟩
      refine ⟨f, ?_, ?_⟩
      · have := hc f v h
        cases f <;> first | exact absurd rfl this | simp [formats]
      · rw [isEmpty_false h rfl]; simp
  rw [ho, ← and_assoc]
  apply and_congr_left'
  have ha : ((final is).results .asap).isEmpty = true ↔ Item.asap ∉ is := by rw [results_isEmpty, no_asap]
  have hl : ((final is).results .linear).isEmpty = true ↔ Item.linear ∉ is := by rw [results_isEmpty, no_linear]
  have hp : ((final is).results .pipeline).isEmpty = true ↔ ∀ v, Item.pipeline v ∉ is := by rw [results_isEmpty, no_pipeline]
  cases h1 : ((final is).results .asap).isEmpty <;> cases h2 : ((final is).results .linear).isEmpty <;>
    cases h3 : ((final is).results .pipeline).isEmpty <;> simp only [h1, h2, h3, Bool.false_eq_true, false_iff, true_iff] at ha hl hp <;>
    simp only [List.filter_cons, List.filter_nil, h1, h2, h3, Bool.not_false, Bool.not_true, if_true, Bool.false_eq_true, if_false,
      List.length_cons, List.length_nil, Nat.reduceAdd, Nat.lt_irrefl] <;> simp_all

theorem missing_iff {is : List Item} : (final is).missing.isEmpty = true ↔ ∀ t, Item.unknown t ∉ is := by
  unfold final
  rw [List.isEmpty_iff, List.filterMap_eq_nil_iff]
  constructor
  · intro h t ht; exact absurd (h _ ht) (by simp [unwanted])
  · intro h i hi
    cases i with
    | unknown t => exact absurd hi (h t)
    | _ => rfl

theorem version_none (b : String → Option Bool) (is : List Item) : versionStop b (final is) = none := by
  unfold versionStop
  rw [no_other (by simp)]
  rfl

/-! ### Theorems -/

/-- With any notation for numbers that is read as it is meant. -/
theorem runs_as_meant {num : String → Nat → Prop} (hnum : ∀ v n, num v n → stagesOf v = some n) (b : String → Option Bool) (cfg : SimConfig)
    {is : List Item} {ls : List String} (hw : WritesAll is ls)
    (hv : Valid num is) (hh : .help ∉ is) : ∃ config o, commandLine b cfg ("hls" :: ls) = .hls config o ∧ Means num is config o := by
  have hn : Numbers num is := fun v h => .inl (hv.given.number v h)
  have hcount : ∀ f v, Item.out f v ∈ is → f ≠ .COUNT := fun f v h => no_count hw h
  have h1 := (badValues_iff hnum hn).mpr hv.given
  have h2 := wantsHelp_iff.mpr hh
  have h3 := (badRequirements_iff hcount).mpr ⟨hv.asap, hv.linear, hv.output⟩
  have h4 := missing_iff.mpr hv.known
  have hu : (final is).used.contains .hls = true := rfl
  have hli : (final is).listed.contains .hls = true := rfl
  refine ⟨(final is).value .config "", ⟨schedulerOf (final is), (stagesOf ((final is).value .pipeline "")).getD 0,
    formats.map fun f => (final is).value (.out f) ""⟩, ?_, ?_⟩
  · unfold commandLine finish
    rw [run_hls hw, version_none, h1, h2, h3, h4, hu]
    rfl
  · have l1 := Nat.le_trans (Nat.le_of_eq (length_results .config Item.isConfig isConfig_iff is)) hv.given.config
    have l2 := Nat.le_trans (Nat.le_of_eq (length_results .pipeline Item.isPipeline isPipeline_iff is)) hv.given.pipeline
    have l3 := fun f hf => Nat.le_trans (Nat.le_of_eq (length_results (.out f) (Item.isOut f) (isOut_iff f) is)) (hv.given.outs f hf)
    have na : Item.asap ∉ is → ((final is).results .asap).isEmpty = true := fun h => results_isEmpty.mpr (no_asap.mpr h)
    have nl : Item.linear ∉ is → ((final is).results .linear).isEmpty = true := fun h => results_isEmpty.mpr (no_linear.mpr h)
    have np : (∀ v, Item.pipeline v ∉ is) → ((final is).results .pipeline).isEmpty = true := fun h => results_isEmpty.mpr (no_pipeline.mpr h)
    have hpath : ∀ f x, f ≠ Format.COUNT → (final is).value (.out f) "" = x →
        (formats.map fun f => (final is).value (.out f) "")[f.id]? = some x := by
      intro f x hf hx
      cases f <;> first | exact absurd rfl hf | exact congrArg some hx
    constructor
    · intro v h; exact value_given l1 h rfl
    · intro h; exact value_absent (no_config.mpr h)
    · intro h
      show schedulerOf (final is) = _
      unfold schedulerOf
      rw [hli, np (hv.asap h).2, nl (hv.asap h).1, isEmpty_false h rfl]
      rfl
    · intro h
      show schedulerOf (final is) = _
      unfold schedulerOf
      rw [hli, np (hv.linear h), isEmpty_false h rfl]
      rfl
    · intro h
      refine ⟨?_, ?_⟩
      · show schedulerOf (final is) = _
        unfold schedulerOf
        rw [hli, isEmpty_false h rfl]
        rfl
      · show (stagesOf ((final is).value .pipeline "")).getD 0 = 0
        rw [value_given l2 h rfl]
        rfl
    · intro v n h hd
      refine ⟨?_, ?_⟩
      · show schedulerOf (final is) = _
        unfold schedulerOf
        rw [hli, isEmpty_false h rfl]
        rfl
      · show (stagesOf ((final is).value .pipeline "")).getD 0 = n
        rw [value_given l2 h rfl, Option.getD_some, hnum _ _ hd]
        rfl
    · intro g1 g2 g3
      show schedulerOf (final is) = _
      unfold schedulerOf
      rw [hli, np g3, nl g2, na g1]
      rfl
    · intro h
      show (stagesOf ((final is).value .pipeline "")).getD 0 = 0
      rw [value_absent (no_pipeline.mpr h)]
      rfl
    · rfl
    · intro f v h
      exact hpath f _ (hcount f v h) (value_given (l3 f (hcount f v h)) h rfl)
    · intro f hf h
      exact hpath f _ hf (value_absent (no_out.mpr h))

/-- A documented command line: the tool runs `hls` with just what is asked for, in whatever order and notation it is written. -/
theorem documented_runs (b : String → Option Bool) (cfg : SimConfig) {is : List Item} {ls : List String} (hw : WritesAll is ls)
    (hv : Valid Decimal is) (hh : .help ∉ is) :
    ∃ config o, commandLine b cfg ("hls" :: ls) = .hls config o ∧ Means Decimal is config o :=
  runs_as_meant (fun _ _ => stagesOf_decimal) b cfg hw hv hh

/-- Anything else is refused: nothing runs, and the exit code says so. -/
theorem undocumented_refused (b : String → Option Bool) (cfg : SimConfig) {is : List Item} {ls : List String} (hw : WritesAll is ls)
    (hn : ∀ v, Item.pipeline (some v) ∈ is → (∃ n, Decimal v n) ∨ NotNumber v) (hv : ¬Valid Decimal is) (hh : .help ∉ is) :
    commandLine b cfg ("hls" :: ls) = .stop .error := by
  have hcount : ∀ f v, Item.out f v ∈ is → f ≠ .COUNT := fun f v h => no_count hw h
  have h2 := wantsHelp_iff.mpr hh
  unfold commandLine finish
  rw [run_hls hw, version_none, h2]
  simp only [Bool.false_eq_true, if_false]
  cases h1 : badValues (final is) with
  | true => rfl
  | false =>
    simp only [Bool.false_eq_true, if_false]
    cases h3 : badRequirements (final is) with
    | true => rfl
    | false =>
      simp only [Bool.false_eq_true, if_false]
      cases h4 : (final is).missing.isEmpty with
      | false => rfl
      | true =>
        obtain ⟨a, l, o⟩ := (badRequirements_iff hcount).mp h3
        exact absurd ⟨(badValues_iff (fun _ _ => stagesOf_decimal) hn).mp h1, a, l, o, missing_iff.mp h4⟩ hv

/-- Asking for help prints help, and nothing runs: the exit code is 0 if the values given are all right. -/
theorem help_stops (b : String → Option Bool) (cfg : SimConfig) {is : List Item} {ls : List String} (hw : WritesAll is ls) (hh : .help ∈ is) :
    (WellGiven Decimal is → commandLine b cfg ("hls" :: ls) = .stop .help) ∧
    ∃ e, commandLine b cfg ("hls" :: ls) = .stop e := by
  have h2 : wantsHelp (final is) = true := by
    rw [← Bool.not_eq_false, wantsHelp_iff]
    exact fun h => h hh
  unfold commandLine finish
  rw [run_hls hw, version_none, h2]
  constructor
  · intro hg
    rw [(badValues_iff (num := Decimal) (fun _ _ => stagesOf_decimal) fun v h => .inl (hg.number v h)).mpr hg]
    rfl
  · simp only [if_true]
    cases badValues (final is) with
    | true => exact ⟨_, rfl⟩
    | false => exact ⟨_, rfl⟩

/-- What is meant is determined by what is asked for, whatever the order. -/
theorem means_unique {is js : List Item} (hs : ∀ i, i ∈ is ↔ i ∈ js) (hv : Valid Decimal is) {c c' : String} {o o' : Options} (h : Means Decimal is c o)
    (h' : Means Decimal js c' o') : c = c' ∧ o = o' := by
  have hs' : ∀ i, i ∉ is ↔ i ∉ js := fun i => not_congr (hs i)
  refine ⟨?_, ?_⟩
  · by_cases hc : ∃ v, Item.config v ∈ is
    · obtain ⟨v, hc⟩ := hc
      rw [h.config_given v hc, h'.config_given v ((hs _).mp hc)]
    · rw [not_exists] at hc
      rw [h.config_absent hc, h'.config_absent fun v => (hs' _).mp (hc v)]
  · have hst : o.scheduler = o'.scheduler ∧ o.stages = o'.stages := by
      by_cases hp : ∃ v, Item.pipeline v ∈ is
      · obtain ⟨v, hp⟩ := hp
        cases v with
        | none =>
          have e := h.pipeline_bare hp
          have e' := h'.pipeline_bare ((hs _).mp hp)
          exact ⟨e.1.trans e'.1.symm, e.2.trans e'.2.symm⟩
        | some v =>
          obtain ⟨n, hd⟩ := hv.given.number v hp
          have e := h.pipeline v n hp hd
          have e' := h'.pipeline v n ((hs _).mp hp) hd
          exact ⟨e.1.trans e'.1.symm, e.2.trans e'.2.symm⟩
      · rw [not_exists] at hp
        have hp' : ∀ v, Item.pipeline v ∉ js := fun v => (hs' _).mp (hp v)
        refine ⟨?_, (h.stages hp).trans (h'.stages hp').symm⟩
        by_cases ha : Item.asap ∈ is
        · rw [h.asap ha, h'.asap ((hs _).mp ha)]
        · by_cases hl : Item.linear ∈ is
          · rw [h.linear hl, h'.linear ((hs _).mp hl)]
          · rw [h.unscheduled ha hl hp, h'.unscheduled ((hs' _).mp ha) ((hs' _).mp hl) hp']
    have hpaths : o.paths = o'.paths := by
      have each : ∀ f : Format, f ≠ .COUNT → o.paths[f.id]? = o'.paths[f.id]? := by
        intro f hf
        by_cases ho : ∃ v, Item.out f v ∈ is
        · obtain ⟨v, ho⟩ := ho
          rw [h.path_given f v ho, h'.path_given f v ((hs _).mp ho)]
        · rw [not_exists] at ho
          rw [h.path_absent f hf ho, h'.path_absent f hf fun v => (hs' _).mp (ho v)]
      apply List.ext_getElem?
      intro i
      match i with
      | 0 => exact each .SystemVerilog nofun
      | 1 => exact each .SVLibrary nofun
      | 2 => exact each .UnscheduledDFCIR nofun
      | 3 => exact each .ScheduledDFCIR nofun
      | 4 => exact each .FIRRTL nofun
      | 5 => exact each .DOT nofun
      | i + 6 => rw [List.getElem?_eq_none (by rw [h.six]; omega), List.getElem?_eq_none (by rw [h'.six]; omega)]
    obtain ⟨a, b, c⟩ := o
    obtain ⟨a', b', c'⟩ := o'
    simp only [Options.mk.injEq]
    exact ⟨hst.1, hst.2, hpaths⟩

/-- The order and the notation of the arguments do not matter. -/
theorem order_irrelevant (b : String → Option Bool) (cfg : SimConfig) {is js : List Item} {ls ls' : List String} (hw : WritesAll is ls)
    (hw' : WritesAll js ls') (hp : is.Perm js) (hv : Valid Decimal is) (hh : .help ∉ is) :
    commandLine b cfg ("hls" :: ls) = commandLine b cfg ("hls" :: ls') := by
  have hs : ∀ i, i ∈ is ↔ i ∈ js := fun i => hp.mem_iff
  have times_eq : ∀ p, times p js = times p is := fun p => ((hp.filter p).length_eq).symm
  have hv' : Valid Decimal js := by
    obtain ⟨⟨h1, h2, h3, h4⟩, h5, h6, ⟨f, v, h7⟩, h8⟩ := hv
    refine ⟨⟨by rw [times_eq]; exact h1, by rw [times_eq]; exact h2, fun f hf => by rw [times_eq]; exact h3 f hf,
      fun v h => h4 v ((hs _).mpr h)⟩, fun h => ?_, fun h v h' => ?_, ⟨f, v, (hs _).mp h7⟩, fun t h => h8 t ((hs _).mpr h)⟩
    · exact ⟨fun h' => (h5 ((hs _).mpr h)).1 ((hs _).mpr h'), fun v h' => (h5 ((hs _).mpr h)).2 v ((hs _).mpr h')⟩
    · exact h6 ((hs _).mpr h) v ((hs _).mpr h')
  obtain ⟨c, o, e, m⟩ := documented_runs b cfg hw hv hh
  obtain ⟨c', o', e', m'⟩ := documented_runs b cfg hw' hv' (fun h => hh ((hs _).mpr h))
  obtain ⟨rfl, rfl⟩ := means_unique hs hv m m'
  rw [e, e']

end Verif.Cli
