import Verif.Config.Model
/- Properties C36, C48, C49, C53. -/
namespace Verif.Config
open Verif.Dfcxx (Fault)
open Ops

/-! ### C48 -/

theorem ite_step {s n : String} {a b o : Ops} (h : (if s = n then a else b) = o) : (s = n ∧ a = o) ∨ b = o := by
  by_cases hs : s = n
  · rw [if_pos hs] at h; exact .inl ⟨hs, h⟩
  · rw [if_neg hs] at h; exact .inr h

/-- **C48.**  Names and kinds correspond one to one: the printed name of every kind is read back as that kind, a string
read as a kind is that kind's name, so different accepted strings denote different kinds, and a string is rejected
(`UNDEFINED`) exactly when it is no kind's name. -/
theorem names_round_trip :
    (∀ o, o ≠ UNDEFINED → convertFieldToEnum (opTypeToString o) = o) ∧
    (∀ s, convertFieldToEnum s ≠ UNDEFINED → opTypeToString (convertFieldToEnum s) = s) ∧
    (∀ s s', convertFieldToEnum s = convertFieldToEnum s' → convertFieldToEnum s ≠ UNDEFINED → s = s') ∧
    (∀ s, convertFieldToEnum s = UNDEFINED ↔ ∀ o, o ≠ UNDEFINED → s ≠ opTypeToString o) := by
  have h1 : ∀ o, o ≠ UNDEFINED → convertFieldToEnum (opTypeToString o) = o := by
    intro o ho; cases o <;> first | exact absurd rfl ho | decide
  have h2 : ∀ s, convertFieldToEnum s ≠ UNDEFINED → opTypeToString (convertFieldToEnum s) = s := by
    intro s
    suffices ∀ o, convertFieldToEnum s = o → o ≠ UNDEFINED → opTypeToString o = s from fun h => this _ rfl h
    intro o h hne
    unfold convertFieldToEnum at h
    iterate 22
      rcases ite_step h with ⟨hs, ho⟩ | h
      · rw [hs, ← ho]; rfl
    exact absurd h.symm hne
  refine ⟨h1, h2, ?_, ?_⟩
  · intro s s' he hne
    rw [← h2 s hne, he, h2 s' (he ▸ hne)]
  · intro s
    constructor
    · intro h o ho he
      rw [he, h1 o ho] at h; exact ho h
    · intro h
      by_cases hu : convertFieldToEnum s = UNDEFINED
      · exact hu
      · exact absurd (h2 s hu).symm (h _ hu)

theorem fold_put (fields : List (String × Int)) : ∀ (m : LatMap) (o : Ops),
    (fields.foldl (fun m kv => m.put (convertFieldToEnum kv.1) (toU16 kv.2)) m) o =
      match (fields.filter (fun kv => convertFieldToEnum kv.1 = o)).getLast? with
      | some kv => some (toU16 kv.2)
      | none => m o := by
  induction fields with
  | nil => intro m o; rfl
  | cons kv rest ih =>
    intro m o
    rw [List.foldl_cons, ih, List.filter_cons]
    by_cases h : convertFieldToEnum kv.1 = o
    · simp only [h, decide_true, if_true, List.getLast?_cons]
      cases hl : (rest.filter fun kv => decide (convertFieldToEnum kv.1 = o)).getLast? with
      | none => simp [LatMap.put]
      | some x => simp
    · have : m.put (convertFieldToEnum kv.1) (toU16 kv.2) o = m o := by
        simp only [LatMap.put]; rw [if_neg (fun he => h he.symm)]
      simp only [h, decide_false, this]
      rfl

/-- **C48, second half.**  A field whose name is not an operation kind changes no latency, whatever its value and
wherever it stands. -/
theorem unknown_field_harmless (top : List (String × Int)) (pre post : List (String × Int)) (s : String) (z : Int)
    (hs : convertFieldToEnum s = UNDEFINED) (k : Kind) (isFloat : Bool) :
    unitLatency (some ⟨top, some (pre ++ (s, z) :: post)⟩) k isFloat =
    unitLatency (some ⟨top, some (pre ++ post)⟩) k isFloat := by
  unfold unitLatency applyConfig
  split
  · have : ∀ o, processorConfig (parseLatencyConfig (some ⟨top, some (pre ++ (s, z) :: post)⟩)) o =
        processorConfig (parseLatencyConfig (some ⟨top, some (pre ++ post)⟩)) o := by
      intro o
      simp only [processorConfig, LatMap.put]
      split
      · rfl
      · rename_i ho
        simp only [parseLatencyConfig, parseInternalOpsConfig]
        rw [fold_put, fold_put, List.filter_append, List.filter_append, List.filter_cons]
        rw [if_neg (by simp only [hs, decide_eq_true_eq]; exact fun he => ho he.symm)]
    rw [this]
  · rfl

/-! ### C36 -/

/-- Name of the configuration field for a unit whose operands are of the given class. -/
def fieldName : Kind → Bool → Option String
  | .add, f => some (if f then "ADD_FLOAT" else "ADD_INT")
  | .sub, f => some (if f then "SUB_FLOAT" else "SUB_INT")
  | .mul, f => some (if f then "MUL_FLOAT" else "MUL_INT")
  | .div, f => some (if f then "DIV_FLOAT" else "DIV_INT")
  | .neg, f => some (if f then "NEG_FLOAT" else "NEG_INT")
  | .less, f => some (if f then "LESS_FLOAT" else "LESS_INT")
  | .lessEq, f => some (if f then "LESSEQ_FLOAT" else "LESSEQ_INT")
  | .greater, f => some (if f then "GREATER_FLOAT" else "GREATER_INT")
  | .greaterEq, f => some (if f then "GREATEREQ_FLOAT" else "GREATEREQ_INT")
  | .eq, f => some (if f then "EQ_FLOAT" else "EQ_INT")
  | .neq, f => some (if f then "NEQ_FLOAT" else "NEQ_INT")
  | _, _ => none

theorem fieldName_resolve {k : Kind} {f : Bool} {n : String} (h : fieldName k f = some n) :
    k.scheduled = true ∧ resolveInternalOpType k f = convertFieldToEnum n ∧ convertFieldToEnum n ≠ UNDEFINED := by
  cases k <;> cases f <;> simp [fieldName] at h <;> subst h <;> decide

/-- **C36**, relative to the class of the unit's *result*: a configured unit gets its configured latency (a 16-bit
value), an unconfigured one 1, and operations without units 0. -/
theorem latency_honoured_partial (top fields : List (String × Int)) (hkeys : (fields.map Prod.fst).Nodup)
    (k : Kind) (resultFloat : Bool) :
    (∀ n, fieldName k resultFloat = some n →
      (∀ z, (n, z) ∈ fields → 0 ≤ z → z < 65536 → unitLatency (some ⟨top, some fields⟩) k resultFloat = z.toNat) ∧
      ((∀ z, (n, z) ∉ fields) → unitLatency (some ⟨top, some fields⟩) k resultFloat = 1)) ∧
    (fieldName k resultFloat = none → k ≠ .rem → k ≠ .mod → unitLatency (some ⟨top, some fields⟩) k resultFloat = 0) := by
  have huniq : ∀ n z, (n, z) ∈ fields → ∀ kv ∈ fields, kv.1 = n → kv = (n, z) := by
    intro n z h1 kv h2 he
    induction fields with
    | nil => simp at h1
    | cons a l ih =>
      simp only [List.map_cons, List.nodup_cons] at hkeys
      rcases List.mem_cons.1 h1 with h1 | h1 <;> rcases List.mem_cons.1 h2 with h2 | h2
      · rw [h2, h1]
      · exfalso; apply hkeys.1; rw [← h1]; exact List.mem_map.2 ⟨kv, h2, he⟩
      · exfalso; apply hkeys.1; rw [← h2, he]; exact List.mem_map.2 ⟨(n, z), h1, rfl⟩
      · exact ih hkeys.2 h1 h2
  refine ⟨?_, ?_⟩
  · intro n hn
    obtain ⟨hs, hr, hu⟩ := fieldName_resolve hn
    have hconv : ∀ s, convertFieldToEnum s = convertFieldToEnum n → s = n := by
      intro s he; exact names_round_trip.2.2.1 s n he (he ▸ hu)
    have hval : unitLatency (some ⟨top, some fields⟩) k resultFloat =
        match (fields.filter (fun kv => convertFieldToEnum kv.1 = convertFieldToEnum n)).getLast? with
        | some kv => toU16 kv.2
        | none => 1 := by
      unfold unitLatency applyConfig
      rw [if_pos hs, hr]
      have : processorConfig (parseLatencyConfig (some ⟨top, some fields⟩)) (convertFieldToEnum n) =
          parseLatencyConfig (some ⟨top, some fields⟩) (convertFieldToEnum n) := by
        simp only [processorConfig, LatMap.put, if_neg hu]
      rw [this]
      simp only [parseLatencyConfig, parseInternalOpsConfig, fold_put]
      cases (fields.filter fun kv => decide (convertFieldToEnum kv.1 = convertFieldToEnum n)).getLast? <;> rfl
    refine ⟨?_, ?_⟩
    · intro z hz h0 h1
      rw [hval]
      cases hl : (fields.filter (fun kv => convertFieldToEnum kv.1 = convertFieldToEnum n)).getLast? with
      | none =>
        rw [List.getLast?_eq_none_iff, List.filter_eq_nil_iff] at hl
        exact absurd (by simp) (hl (n, z) hz)
      | some kv =>
        have hm := List.mem_of_getLast? hl
        rw [List.mem_filter] at hm
        have := huniq n z hz kv hm.1 (hconv kv.1 (by simpa using hm.2))
        subst this
        simp only [toU16, BitVec.toNat_ofInt]; omega
    · intro hno
      rw [hval]
      have : fields.filter (fun kv => decide (convertFieldToEnum kv.1 = convertFieldToEnum n)) = [] := by
        rw [List.filter_eq_nil_iff]
        intro kv hkv he
        have := hconv kv.1 (by simpa using he)
        exact hno kv.2 (by rw [← this]; exact hkv)
      rw [this]; rfl
  · intro hn h1 h2
    cases k <;> simp [fieldName] at hn <;>
      simp [unitLatency, applyConfig, Kind.scheduled, resolveInternalOpType, processorConfig, LatMap.put] <;>
      simp at h1 h2

/-- C36 with no configuration at all: every configurable unit takes 1 cycle. -/
theorem latency_default (k : Kind) (f : Bool) (n : String) (h : fieldName k f = some n) : unitLatency none k f = 1 := by
  cases k <;> cases f <;> simp [fieldName] at h <;>
    simp [unitLatency, applyConfig, Kind.scheduled, resolveInternalOpType, processorConfig, LatMap.put, parseLatencyConfig]

/-- **C36 fails for floating-point comparisons** (finding).  The unit's class is taken from its result, and a
comparison's result is not floating point; so the documented `*_FLOAT` latency ("based on the types of its arguments")
of a comparison is never used: changing it in any configuration changes nothing. -/
theorem float_comparison_latency_ignored (top pre post : List (String × Int)) (z z' : Int) (k : Kind)
    (hk : k ∈ [Kind.less, .lessEq, .greater, .greaterEq, .eq, .neq]) (n : String) (hn : fieldName k true = some n) :
    unitLatency (some ⟨top, some (pre ++ (n, z) :: post)⟩) k false =
    unitLatency (some ⟨top, some (pre ++ (n, z') :: post)⟩) k false := by
  have hne : ∀ s, resolveInternalOpType k false = convertFieldToEnum s → s ≠ n := by
    rintro s h rfl
    simp only [List.mem_cons, List.not_mem_nil, or_false] at hk
    rcases hk with rfl | rfl | rfl | rfl | rfl | rfl <;> simp [fieldName] at hn <;> subst hn <;> revert h <;> decide
  have hcn : convertFieldToEnum n ≠ resolveInternalOpType k false := fun h => hne n h.symm rfl
  unfold unitLatency applyConfig
  split
  · have : processorConfig (parseLatencyConfig (some ⟨top, some (pre ++ (n, z) :: post)⟩)) (resolveInternalOpType k false) =
        processorConfig (parseLatencyConfig (some ⟨top, some (pre ++ (n, z') :: post)⟩)) (resolveInternalOpType k false) := by
      simp only [processorConfig, LatMap.put]
      split
      · rfl
      · simp only [parseLatencyConfig, parseInternalOpsConfig]
        rw [fold_put, fold_put, List.filter_append, List.filter_append, List.filter_cons, List.filter_cons]
        rw [if_neg (by simpa using hcn), if_neg (by simpa using hcn)]
    rw [this]
  · rfl

/-- Non-vacuity of C36. -/
example : unitLatency (some ⟨[], some [("MUL_INT", 3), ("ADD_FLOAT", 8)]⟩) .mul false = 3 ∧
    unitLatency (some ⟨[], some [("MUL_INT", 3), ("ADD_FLOAT", 8)]⟩) .add true = 8 ∧
    unitLatency (some ⟨[], some [("MUL_INT", 3), ("ADD_FLOAT", 8)]⟩) .add false = 1 ∧
    unitLatency (some ⟨[], some [("MUL_INT", 3), ("ADD_FLOAT", 8)]⟩) .mux false = 0 := by decide

/-- Remainder and modulus have no unit in the configuration and are scheduled with latency 0. -/
theorem rem_mod_latency_zero (file : Option JsonDoc) (f : Bool) :
    unitLatency file .rem f = 0 ∧ unitLatency file .mod f = 0 := by
  simp [unitLatency, applyConfig, Kind.scheduled, resolveInternalOpType, processorConfig, LatMap.put]

/-! ### C53 -/

/-- **C53 fails** (finding).  A configuration written in the documented format -- the fields directly in the top-level
object, docs/latency_config.md -- is read without complaint and has no effect at all: every unit gets the latency it
would have with no configuration. -/
theorem documented_format_ignored (fields : List (String × Int)) (k : Kind) (f : Bool) :
    unitLatency (some ⟨fields, none⟩) k f = unitLatency none k f := rfl

/-- The documented example itself: a multiplication configured with three cycles takes one. -/
theorem documented_example_ignored :
    ¬ (∀ (fields : List (String × Int)) (n : String) (z : Int) (k : Kind), (fields.map Prod.fst).Nodup →
        fieldName k false = some n → (n, z) ∈ fields → 0 ≤ z → z < 65536 →
        unitLatency (some ⟨fields, none⟩) k false = z.toNat) := by
  intro h
  have := h [("MUL_INT", 3), ("ADD_INT", 1), ("SUB_INT", 1)] "MUL_INT" 3 .mul (by decide) rfl (by decide) (by decide) (by decide)
  revert this; decide

/-- A latency of 65536 or more is silently reduced modulo 65536: 65536 becomes combinational. -/
theorem latency_wraps : unitLatency (some ⟨[], some [("MUL_INT", 65536)]⟩) .mul false = 0 := by decide

/-! ### C49 -/

theorem foldl_ok (paths : List (Format × String)) : (∀ e ∈ paths, e.1 ≠ .COUNT) → (paths.map Prod.fst).Nodup →
    ∀ v : List String, v.length = 6 →
    ∃ r, paths.foldl (fun acc e => match acc with
      | .error f => .error f
      | .ok v => if e.1.id < v.length then .ok (v.set e.1.id e.2) else .error .ub) (Except.ok (ε := Fault) v) = .ok r ∧
    r.length = 6 ∧ ∀ f : Format, f ≠ .COUNT → (∀ p, (f, p) ∈ paths → r[f.id]? = some p) ∧
      ((∀ p, (f, p) ∉ paths) → r[f.id]? = v[f.id]?) := by
  induction paths with
  | nil => intro _ _ v hv; exact ⟨v, rfl, hv, fun f _ => ⟨by simp, fun _ => rfl⟩⟩
  | cons e rest ih =>
    intro hc hnd v hv
    simp only [List.map_cons, List.nodup_cons] at hnd
    have hid : e.1.id < v.length := by
      have := hc e (by simp)
      rw [hv]
      obtain ⟨fm, s⟩ := e
      cases fm <;> simp [Format.id] at this ⊢
    obtain ⟨r, h1, h2, h3⟩ := ih (fun e he => hc e (by simp [he])) hnd.2 (v.set e.1.id e.2) (by simpa using hv)
    refine ⟨r, by simp only [List.foldl_cons, if_pos hid]; exact h1, h2, ?_⟩
    intro f hf
    obtain ⟨h4, h5⟩ := h3 f hf
    have hinj : ∀ g : Format, g.id = f.id → g = f := by
      intro g; cases g <;> cases f <;> simp [Format.id]
    refine ⟨?_, ?_⟩
    · intro p hp
      rcases List.mem_cons.1 hp with he | hp
      · have hno : ∀ q, (f, q) ∉ rest := by
          intro q hq; apply hnd.1; rw [← he]; exact List.mem_map.2 ⟨(f, q), hq, rfl⟩
        rw [h5 hno, ← he]
        rw [List.getElem?_set_self (by rw [← he] at hid; exact hid)]
      · exact h4 p hp
    · intro hno
      rw [h5 (fun p hp => hno p (by simp [hp]))]
      rw [List.getElem?_set_ne]
      intro he
      have := hinj e.1 he
      exact hno e.2 (by rw [← this]; simp)

/-- **C49.**  For every map from output formats to paths, in whatever order it is iterated, the vector passed on holds
for each format exactly the path given for it, and the empty string for formats not given; a stream is opened exactly
for the formats given with a non-empty path. -/
theorem output_paths_correct (paths : List (Format × String)) (hc : ∀ e ∈ paths, e.1 ≠ .COUNT)
    (hkeys : (paths.map Prod.fst).Nodup) :
    ∃ r, outputPathsToVector paths = .ok r ∧ r.length = 6 ∧
      ∀ f : Format, f ≠ .COUNT →
        (∀ p, (f, p) ∈ paths → r[f.id]? = some p ∧ (openStreams r)[f.id]? = some (if p = "" then none else some p)) ∧
        ((∀ p, (f, p) ∉ paths) → r[f.id]? = some "" ∧ (openStreams r)[f.id]? = some none) := by
  obtain ⟨r, h1, h2, h3⟩ := foldl_ok paths hc hkeys (List.replicate 6 "") (by simp)
  refine ⟨r, h1, h2, ?_⟩
  intro f hf
  obtain ⟨h4, h5⟩ := h3 f hf
  have hid : f.id < 6 := by cases f <;> simp [Format.id] at hf ⊢
  refine ⟨?_, ?_⟩
  · intro p hp
    have := h4 p hp
    refine ⟨this, ?_⟩
    simp only [openStreams, List.getElem?_map, this, Option.map_some, String.isEmpty_iff]
  · intro hno
    have := h5 hno
    rw [List.getElem?_replicate, if_pos hid] at this
    refine ⟨this, ?_⟩
    simp only [openStreams, List.getElem?_map, this, Option.map_some]
    rfl

/-- Non-vacuity of C49. -/
example : outputPathsToVector [(.FIRRTL, "a.mlir"), (.SystemVerilog, "b.sv")] =
    .ok ["b.sv", "", "", "", "a.mlir", ""] := by rfl

end Verif.Config
