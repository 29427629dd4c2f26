import Verif.Driver.Model
import Verif.Config.Props
import Mathlib.Data.List.Nodup
/-
C66: every requested artefact is that of its stage, whatever else is requested, and the exit code says whether all stages succeeded.
-/
namespace Verif.Driver
open Verif.Config Verif.Dfcxx

variable {M : Type}

/-! ### Specification -/

/-- A stage that fails, or leaves a module the verifier rejects, has no result. -/
def checked (B : Backend M) (r : Option M) : Option M := r.bind fun m => if B.verify m then some m else none

/-- The module after scheduling. -/
def scheduled (B : Backend M) (o : Options) (m : M) : Option M :=
  checked B (match o.scheduler with
    | .linear => B.linear m
    | .asap => B.asap m
    | .combPipelining => B.comb o.stages m)

/-- The module in FIRRTL. -/
def lowered (B : Backend M) (o : Options) (m : M) : Option M := (scheduled B o m).bind fun m => checked B (B.toFIRRTL m)

/-- The module ready for export. -/
def optimised (B : Backend M) (o : Options) (m : M) : Option M :=
  B.circt.foldl (fun r f => r.bind fun m => checked B (f m)) (lowered B o m)

/-- The artefact of each format, if the stages before it succeed.  It mentions no path: it does not depend on what else is requested. -/
def artefact (B : Backend M) (o : Options) (m : M) : Format → Option String
  | .DOT => some B.dot
  | .UnscheduledDFCIR => some (B.print m)
  | .ScheduledDFCIR => (scheduled B o m).map B.print
  | .FIRRTL => (lowered B o m).map B.print
  | .SVLibrary => (lowered B o m).map B.stubs
  | .SystemVerilog => (optimised B o m).bind B.exportVerilog
  | .COUNT => none

/-- The path given for a format; none if it is not requested. -/
def requested (o : Options) (f : Format) : Option String :=
  match o.paths[f.id]? with
  | some p => if p = "" then none else some p
  | none => none

/-- All stages needed for what is requested succeed. -/
def AllSucceed (B : Backend M) (o : Options) (m : M) : Prop :=
  (lowered B o m).isSome ∧ ((requested o .SystemVerilog).isSome → (artefact B o m .SystemVerilog).isSome)

/-- A command line: one path per format, no file twice, and the files can be opened. -/
structure Sensible (B : Backend M) (o : Options) : Prop where
  six : o.paths.length = 6
  distinct : ∀ f g p, requested o f = some p → requested o g = some p → f = g
  opens : ∀ f p, requested o f = some p → B.canOpen p = true

/-! ### Proofs -/

theorem stream_requested (o : Options) (f : Format) : stream (openStreams o.paths) f = requested o f := by
  unfold stream openStreams requested
  rw [List.getElem?_map]
  cases h : o.paths[f.id]? with
  | none => rfl
  | some p => by_cases hp : p = "" <;> simp [hp]

theorem openAll_ok (B : Backend M) : ∀ (ss : List (Option String)) (fs : Files), (∀ p, some p ∈ ss → B.canOpen p = true) →
    ∃ fs', openAll B ss fs = .ok fs' ∧ ∀ q, fs' q = if some q ∈ ss then some "" else fs q := by
  intro ss
  induction ss with
  | nil => intro fs _; exact ⟨fs, rfl, fun q => by simp⟩
  | cons s ss ih =>
    intro fs h
    cases s with
    | none =>
      obtain ⟨fs', h1, h2⟩ := ih fs fun p hp => h p (List.mem_cons_of_mem _ hp)
      exact ⟨fs', h1, fun q => by rw [h2]; simp⟩
    | some p =>
      obtain ⟨fs', h1, h2⟩ := ih (fs.put p "") fun p hp => h p (List.mem_cons_of_mem _ hp)
      refine ⟨fs', by simp only [openAll]; rw [if_pos (h p (by simp))]; exact h1, fun q => ?_⟩
      rw [h2]
      unfold Files.put
      by_cases hq : some q ∈ ss
      · simp [hq]
      · by_cases e : q = p
        · simp [e]
        · simp [hq, e]

theorem mem_streams {o : Options} (h6 : o.paths.length = 6) {q : String} :
    some q ∈ openStreams o.paths ↔ ∃ f, requested o f = some q := by
  constructor
  · intro h
    obtain ⟨i, hi, he⟩ := List.mem_iff_getElem.mp h
    have hl : i < 6 := by simpa [openStreams, h6] using hi
    have : ∃ f : Format, f.id = i := by
      match i, hl with
      | 0, _ => exact ⟨.SystemVerilog, rfl⟩
      | 1, _ => exact ⟨.SVLibrary, rfl⟩
      | 2, _ => exact ⟨.UnscheduledDFCIR, rfl⟩
      | 3, _ => exact ⟨.ScheduledDFCIR, rfl⟩
      | 4, _ => exact ⟨.FIRRTL, rfl⟩
      | 5, _ => exact ⟨.DOT, rfl⟩
    obtain ⟨f, rfl⟩ := this
    refine ⟨f, ?_⟩
    rw [← stream_requested]
    unfold stream
    rw [List.getElem?_eq_getElem hi, he]
    rfl
  · rintro ⟨f, hf⟩
    rw [← stream_requested] at hf
    unfold stream at hf
    cases h : (openStreams o.paths)[f.id]? with
    | none => rw [h] at hf; cases hf
    | some x =>
      rw [h] at hf
      have : x = some q := hf
      rw [this] at h
      exact List.mem_of_getElem? h

/-- Transformations do not touch files. -/
theorem runPasses_transforms (B : Backend M) : ∀ (l : List (M → Option M)) (m : M) (ps : List (Pass M)) (fs : Files),
    runPasses B.verify (l.map .transform ++ ps) m fs =
      match l.foldl (fun r f => r.bind fun m => checked B (f m)) (some m) with
      | some m' => runPasses B.verify ps m' fs
      | none => (false, fs) := by
  intro l
  induction l with
  | nil => intro m ps fs; rfl
  | cons f l ih =>
    intro m ps fs
    have none_fold : ∀ l : List (M → Option M), l.foldl (fun r f => r.bind fun m => checked B (f m)) none = none := by
      intro l; induction l with
      | nil => rfl
      | cons _ _ ih => simpa using ih
    simp only [List.map_cons, List.cons_append, runPasses, Pass.run, List.foldl_cons, Option.bind_some]
    cases hf : f m with
    | none =>
      have hc : checked B (none : Option M) = none := rfl
      rw [hc, none_fold]
    | some m1 =>
      by_cases hv : B.verify m1 = true
      · have hc : checked B (some m1) = some m1 := by simp [checked, hv]
        rw [hc]; dsimp only; rw [if_pos hv]; exact ih m1 ps fs
      · have hc : checked B (some m1) = none := by simp [checked, hv]
        rw [hc, none_fold]; dsimp only; rw [if_neg hv]

/-- Write to the file of a format, if it is requested. -/
def wr (o : Options) (f : Format) (s : String) (fs : Files) : Files :=
  match requested o f with
  | some p => fs.append p s
  | none => fs

theorem wr_apply (o : Options) (f : Format) (s : String) (fs : Files) (q : String) :
    wr o f s fs q = if requested o f = some q then some ((fs q).getD "" ++ s) else fs q := by
  unfold wr
  cases h : requested o f with
  | none => simp
  | some p =>
    unfold Files.append Files.put
    by_cases e : q = p
    · simp [e]
    · have : ¬ p = q := fun h => e h.symm
      simp [e, this]

theorem checked_some {B : Backend M} {r : Option M} {m : M} (h : checked B r = some m) : r = some m ∧ B.verify m = true := by
  unfold checked at h
  cases r with
  | none => cases h
  | some m1 =>
    simp only [Option.bind_some] at h
    split at h
    · rename_i hv; cases h; exact ⟨rfl, hv⟩
    · cases h

/-- A writing pass on a verified module. -/
theorem runPasses_write (B : Backend M) (o : Options) (f : Format) (g : M → String) {m : M} (hv : B.verify m = true) (ps : List (Pass M))
    (fs : Files) :
    runPasses B.verify (when (requested o f) (fun p => [.write p fun m => some (g m)]) ++ ps) m fs =
      runPasses B.verify ps m (wr o f (g m) fs) := by
  unfold when wr
  cases requested o f with
  | none => rfl
  | some p => simp [runPasses, Pass.run, hv]

theorem runPasses_checked (B : Backend M) (f : M → Option M) (m : M) (ps : List (Pass M)) (fs : Files) :
    runPasses B.verify (.transform f :: ps) m fs =
      match checked B (f m) with
      | some m' => runPasses B.verify ps m' fs
      | none => (false, fs) := by
  simp only [runPasses, Pass.run, checked]
  cases f m with
  | none => rfl
  | some m1 => by_cases hv : B.verify m1 = true <;> simp [hv]

theorem fold_verified {B : Backend M} : ∀ (l : List (M → Option M)) (r : Option M) {m : M}, (∀ m', r = some m' → B.verify m' = true) →
    l.foldl (fun r f => r.bind fun m => checked B (f m)) r = some m → B.verify m = true
  | [], r, m, h, e => h m e
  | f :: l, r, m, h, e => fold_verified l _ (fun m' h' => by
      cases r with
      | none => cases h'
      | some m1 => exact (checked_some h').2) e

/-- The whole run of the processor, stage by stage. -/
theorem convertAndPrint_eq (B : Backend M) (o : Options) (m : M) (fs : Files) :
    convertAndPrint B o (openStreams o.paths) m fs =
      match scheduled B o m with
      | none => (false, wr o .UnscheduledDFCIR (B.print m) fs)
      | some m1 =>
        match checked B (B.toFIRRTL m1) with
        | none => (false, wr o .ScheduledDFCIR (B.print m1) (wr o .UnscheduledDFCIR (B.print m) fs))
        | some m2 =>
          match requested o .SystemVerilog with
          | none => (true, wr o .SVLibrary (B.stubs m2) (wr o .FIRRTL (B.print m2)
              (wr o .ScheduledDFCIR (B.print m1) (wr o .UnscheduledDFCIR (B.print m) fs))))
          | some _ =>
            match (optimised B o m).bind B.exportVerilog with
            | none => (false, wr o .SVLibrary (B.stubs m2) (wr o .FIRRTL (B.print m2)
              (wr o .ScheduledDFCIR (B.print m1) (wr o .UnscheduledDFCIR (B.print m) fs))))
            | some t => (true, wr o .SystemVerilog t (wr o .SVLibrary (B.stubs m2) (wr o .FIRRTL (B.print m2)
              (wr o .ScheduledDFCIR (B.print m1) (wr o .UnscheduledDFCIR (B.print m) fs))))) := by
  have e0 : convertAndPrint B o (openStreams o.paths) m fs =
      runPasses B.verify (passList B o (openStreams o.paths)) m (wr o .UnscheduledDFCIR (B.print m) fs) := by
    unfold convertAndPrint wr
    rw [stream_requested]
    rfl
  rw [e0]
  generalize wr o .UnscheduledDFCIR (B.print m) fs = fs1
  unfold passList
  rw [stream_requested, stream_requested, stream_requested, stream_requested]
  have es : ∀ ps, runPasses B.verify ([schedulerPass B o] ++ ps) m fs1 =
      match scheduled B o m with
      | some m' => runPasses B.verify ps m' fs1
      | none => (false, fs1) := by
    intro ps
    unfold schedulerPass scheduled
    cases o.scheduler <;> exact runPasses_checked B _ m ps fs1
  simp only [List.append_assoc]
  rw [es]
  cases h1 : scheduled B o m with
  | none => rfl
  | some m1 =>
    have v1 := (checked_some (by unfold scheduled at h1; exact h1)).2
    dsimp only
    rw [runPasses_write B o .ScheduledDFCIR B.print v1, List.singleton_append, runPasses_checked]
    cases h2 : checked B (B.toFIRRTL m1) with
    | none => rfl
    | some m2 =>
      have v2 := (checked_some h2).2
      dsimp only
      rw [runPasses_write B o .FIRRTL B.print v2, runPasses_write B o .SVLibrary B.stubs v2]
      have hl : lowered B o m = some m2 := by unfold lowered; rw [h1]; exact h2
      unfold when
      cases h3 : requested o .SystemVerilog with
      | none => rfl
      | some p =>
        dsimp only
        rw [runPasses_transforms]
        have ho : optimised B o m = B.circt.foldl (fun r f => r.bind fun m => checked B (f m)) (some m2) := by
          unfold optimised; rw [hl]
        rw [← ho]
        cases h4 : optimised B o m with
        | none => rfl
        | some m3 =>
          have v3 : B.verify m3 = true := by
            refine fold_verified B.circt (some m2) ?_ (ho ▸ h4)
            intro m' e; cases e; exact v2
          simp only [Option.bind_some, runPasses, Pass.run]
          cases h5 : B.exportVerilog m3 with
          | none => rfl
          | some t => simp [v3, wr, h3]

/-- **C66.**  For every behaviour of the stages and every sensible command line: a kernel that does not pass the check gives exit code 1
and no file is touched; otherwise, unless the builder stops the program (no file is touched then), the run ends, the exit code is 0 exactly
if all stages needed for the requested formats succeed, every requested file holds the artefact of its format (and is empty if a stage
before it failed), and no other file is touched.  Since `artefact` does not look at the paths, requesting more or fewer formats changes
no artefact. -/
theorem run_writes_artefacts (B : Backend M) (o : Options) (fs : Files) (hs : Sensible B o) :
    (B.check = false → hlsMain B o fs = .ok (1, fs)) ∧
    (B.check = true → ∀ e, B.build = .error e → hlsMain B o fs = .error e) ∧
    (B.check = true → ∀ m, B.build = .ok m → ∃ code fs', hlsMain B o fs = .ok (code, fs') ∧
      (code = 0 ∨ code = 1) ∧ (code = 0 ↔ AllSucceed B o m) ∧
      (∀ f p, requested o f = some p → fs' p = some ((artefact B o m f).getD "")) ∧
      (∀ q, (∀ f, requested o f ≠ some q) → fs' q = fs q)) := by
  refine ⟨fun hc => by simp [hlsMain, hc], fun hc e he => by simp [hlsMain, hc, compile, he, bind, Except.bind], fun hc m hm => ?_⟩
  obtain ⟨fs0, ho, hfs0⟩ := openAll_ok B (openStreams o.paths) fs fun p hp => by
    obtain ⟨f, hf⟩ := (mem_streams hs.six).mp hp
    exact hs.opens f p hf
  have hdot : (match stream (openStreams o.paths) .DOT with | some p => fs0.append p B.dot | none => fs0) = wr o .DOT B.dot fs0 := by
    rw [stream_requested]; rfl
  have hmain : hlsMain B o fs = .ok (if (convertAndPrint B o (openStreams o.paths) m (wr o .DOT B.dot fs0)).1 then 0 else 1,
      (convertAndPrint B o (openStreams o.paths) m (wr o .DOT B.dot fs0)).2) := by
    unfold hlsMain compile
    rw [hc, hm]
    simp only [bind, Except.bind, pure, Except.pure, ho]
    rw [← hdot]
    rfl
  refine ⟨_, _, hmain, by split <;> simp, ?_, ?_, ?_⟩
  · have key : (convertAndPrint B o (openStreams o.paths) m (wr o .DOT B.dot fs0)).1 = true ↔ AllSucceed B o m := by
      rw [convertAndPrint_eq]
      unfold AllSucceed lowered artefact
      cases h1 : scheduled B o m with
      | none => simp
      | some m1 =>
        simp only [Option.bind_some]
        cases h2 : checked B (B.toFIRRTL m1) with
        | none => simp
        | some m2 =>
          simp only [Option.isSome_some, true_and]
          cases h3 : requested o .SystemVerilog with
          | none => simp
          | some p => cases h4 : (optimised B o m).bind B.exportVerilog <;> simp
    rw [← key]
    cases (convertAndPrint B o (openStreams o.paths) m (wr o .DOT B.dot fs0)).1 <;> simp
  · intro f p hf
    have e0 : fs0 p = some "" := by rw [hfs0, if_pos ((mem_streams hs.six).mpr ⟨f, hf⟩)]
    have other : ∀ g, requested o g = some p → g = f := fun g hg => hs.distinct g f p hg hf
    have ne : ∀ g, g ≠ f → ¬ requested o g = some p := fun g hg h => hg (other g h)
    rw [convertAndPrint_eq]
    have hopt : lowered B o m = none → optimised B o m = none := by
      intro hl
      unfold optimised
      rw [hl]
      generalize B.circt = l
      induction l with
      | nil => rfl
      | cons _ _ ih => simpa using ih
    cases f with
    | COUNT =>
      unfold requested at hf
      rw [List.getElem?_eq_none (by rw [hs.six]; decide)] at hf
      cases hf
    | DOT =>
      have n1 := ne .UnscheduledDFCIR (by decide)
      have n2 := ne .ScheduledDFCIR (by decide)
      have n3 := ne .FIRRTL (by decide)
      have n4 := ne .SVLibrary (by decide)
      have n5 := ne .SystemVerilog (by decide)
      repeat' split
      all_goals simp [wr_apply, hf, e0, n1, n2, n3, n4, n5, artefact]
    | UnscheduledDFCIR =>
      have n1 := ne .DOT (by decide)
      have n2 := ne .ScheduledDFCIR (by decide)
      have n3 := ne .FIRRTL (by decide)
      have n4 := ne .SVLibrary (by decide)
      have n5 := ne .SystemVerilog (by decide)
      repeat' split
      all_goals simp [wr_apply, hf, e0, n1, n2, n3, n4, n5, artefact]
    | ScheduledDFCIR =>
      have n1 := ne .UnscheduledDFCIR (by decide)
      have n2 := ne .DOT (by decide)
      have n3 := ne .FIRRTL (by decide)
      have n4 := ne .SVLibrary (by decide)
      have n5 := ne .SystemVerilog (by decide)
      unfold artefact
      cases h1 : scheduled B o m with
      | none => simp [wr_apply, e0, n1, n2]
      | some m1 =>
        dsimp only
        repeat' split
        all_goals simp [wr_apply, hf, e0, n1, n2, n3, n4, n5]
    | FIRRTL =>
      have n1 := ne .UnscheduledDFCIR (by decide)
      have n2 := ne .DOT (by decide)
      have n3 := ne .ScheduledDFCIR (by decide)
      have n4 := ne .SVLibrary (by decide)
      have n5 := ne .SystemVerilog (by decide)
      unfold artefact lowered
      cases h1 : scheduled B o m with
      | none => simp [wr_apply, e0, n1, n2]
      | some m1 =>
        dsimp only [Option.bind_some]
        cases h2 : checked B (B.toFIRRTL m1) with
        | none => simp [wr_apply, e0, n1, n2, n3]
        | some m2 =>
          dsimp only
          repeat' split
          all_goals simp [wr_apply, hf, e0, n1, n2, n3, n4, n5]
    | SVLibrary =>
      have n1 := ne .UnscheduledDFCIR (by decide)
      have n2 := ne .DOT (by decide)
      have n3 := ne .ScheduledDFCIR (by decide)
      have n4 := ne .FIRRTL (by decide)
      have n5 := ne .SystemVerilog (by decide)
      unfold artefact lowered
      cases h1 : scheduled B o m with
      | none => simp [wr_apply, e0, n1, n2]
      | some m1 =>
        dsimp only [Option.bind_some]
        cases h2 : checked B (B.toFIRRTL m1) with
        | none => simp [wr_apply, e0, n1, n2, n3]
        | some m2 =>
          dsimp only
          repeat' split
          all_goals simp [wr_apply, hf, e0, n1, n2, n3, n4, n5]
    | SystemVerilog =>
      have n1 := ne .UnscheduledDFCIR (by decide)
      have n2 := ne .DOT (by decide)
      have n3 := ne .ScheduledDFCIR (by decide)
      have n4 := ne .FIRRTL (by decide)
      have n5 := ne .SVLibrary (by decide)
      unfold artefact
      cases h1 : scheduled B o m with
      | none => simp [wr_apply, e0, n1, n2, hopt (by unfold lowered; rw [h1]; rfl)]
      | some m1 =>
        dsimp only
        cases h2 : checked B (B.toFIRRTL m1) with
        | none => simp [wr_apply, e0, n1, n2, n3, hopt (by unfold lowered; rw [h1]; exact h2)]
        | some m2 =>
          rw [hf]
          dsimp only
          cases h4 : (optimised B o m).bind B.exportVerilog <;> simp [wr_apply, hf, e0, n1, n2, n3, n4, n5]
  · intro q hq
    have e0 : fs0 q = fs q := by
      rw [hfs0, if_neg]
      intro h
      obtain ⟨f, hf⟩ := (mem_streams hs.six).mp h
      exact hq f hf
    rw [convertAndPrint_eq]
    repeat' split
    all_goals simp [wr_apply, hq, e0]

/-- Requesting other formats as well changes no artefact: two runs with the same scheduling options leave the same text in the file of any
format requested in both. -/
theorem artefact_independent (B : Backend M) (o o' : Options) (fs fs' : Files) (hs : Sensible B o) (hs' : Sensible B o')
    (hsame : o.scheduler = o'.scheduler) (hst : o.stages = o'.stages) {f : Format} {p p' : String} (hp : requested o f = some p)
    (hp' : requested o' f = some p') (hc : B.check = true) {m : M} (hm : B.build = .ok m) {c c' : Nat} {r r' : Files}
    (h : hlsMain B o fs = .ok (c, r)) (h' : hlsMain B o' fs' = .ok (c', r')) : r p = r' p' := by
  obtain ⟨_, _, e, -, -, e1, -⟩ := (run_writes_artefacts B o fs hs).2.2 hc m hm
  obtain ⟨_, _, e', -, -, e1', -⟩ := (run_writes_artefacts B o' fs' hs').2.2 hc m hm
  rw [h] at e; cases e
  rw [h'] at e'; cases e'
  rw [e1 f p hp, e1' f p' hp']
  have es : scheduled B o m = scheduled B o' m := by unfold scheduled; rw [hsame, hst]
  have el : lowered B o m = lowered B o' m := by unfold lowered; rw [es]
  have eo : optimised B o m = optimised B o' m := by unfold optimised; rw [el]
  cases f <;> simp [artefact, es, el, eo]

/-! ### Non-vacuity -/

/-- A back end over numbers: scheduling adds, lowering doubles, and the export fails on multiples of 3. -/
def toy : Backend Nat :=
  { check := true, build := .ok 5, dot := "digraph", print := fun n => if n = 5 then "five" else "other",
    linear := some, asap := fun n => some (n + 1), comb := fun k n => some (n + k), toFIRRTL := fun n => some (2 * n),
    stubs := fun _ => "stubs", circt := [fun n => some (n + 1)], exportVerilog := fun n => if n % 3 = 0 then none else some "verilog",
    verify := fun n => n < 100, canOpen := fun _ => true }

def toyOptions : Options := ⟨.asap, 0, ["o.sv", "", "u.mlir", "", "", ""]⟩

theorem toy_sensible : Sensible toy toyOptions := by
  refine ⟨rfl, ?_, fun _ _ _ => rfl⟩
  intro f g p hf hg
  cases f <;> cases g <;> first | rfl | (simp [requested, toyOptions, Format.id] at hf hg; try (rw [← hf] at hg; simp at hg))

/-- The hypotheses are met by a run that succeeds and leaves a file per requested format. -/
theorem toy_run : ∃ fs', hlsMain toy toyOptions (fun _ => none) = .ok (0, fs') ∧ fs' "o.sv" = some "verilog" ∧
    fs' "u.mlir" = some "five" ∧ fs' "x" = none := by
  refine ⟨_, rfl, rfl, rfl, rfl⟩

/-- With two formats sent to one path the artefacts are written into the same file: the hypothesis `distinct` cannot be dropped. -/
theorem same_path_clash : ∃ fs', hlsMain toy ⟨.asap, 0, ["o", "", "o", "", "", ""]⟩ (fun _ => none) = .ok (0, fs') ∧
    fs' "o" ≠ some "verilog" := by
  refine ⟨_, rfl, ?_⟩
  show some ("" ++ "five" ++ "verilog") ≠ some "verilog"
  decide

end Verif.Driver
