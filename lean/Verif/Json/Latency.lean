import Verif.Json.Config
/-
C89: what is written in the latency file is what the units get.
-/
namespace Verif.Json
open Verif.Config

theorem lastOf_sorted {k : Bytes} : ∀ {fs : List (Bytes × Val)}, Sorted fs → lastOf k fs = fs.lookup k
  | [], _ => rfl
  | (k', v') :: r, h => by
    unfold Sorted at h
    rw [List.pairwise_cons] at h
    have ih := lastOf_sorted (k := k) h.2
    unfold lastOf at ih ⊢
    rw [List.filter_cons, List.lookup_cons]
    by_cases e : k = k'
    · subst e
      have hnone : r.filter (fun m => decide (m.1 = k)) = [] := by
        rw [List.filter_eq_nil_iff]
        intro p hp hpk
        have := h.1 p hp
        rw [of_decide_eq_true hpk] at this
        exact absurd this (lt_irrefl _)
      simp [hnone]
    · rw [if_neg (by simpa using fun e' => e e'.symm), ih, beq_eq_false_iff_ne.mpr e]

/-! ### Names -/

theorem name_bytes (s : String) : name (bytes s) = s := by
  unfold name bytes
  rw [List.map_map, show (Char.ofNat ∘ Char.toNat) = id from funext fun c => Char.ofNat_toNat c, List.map_id, String.ofList_toList]

theorem ofNat_toNat {x : Nat} {c : Char} (h : Char.ofNat x = c) (hc : c ≠ '\x00') : x = c.toNat := by
  by_cases hv : x.isValidChar
  · rw [← h]
    unfold Char.ofNat
    rw [dif_pos hv]
    rfl
  · exfalso
    apply hc
    rw [← h, Char.ofNat, dif_neg hv]
    rfl

theorem name_eq {b : Bytes} {n : String} (h : name b = n) (hn : ∀ c ∈ n.toList, c ≠ '\x00') : b = bytes n := by
  have e : b.map Char.ofNat = n.toList := by rw [← h]; unfold name; rw [String.toList_ofList]
  unfold bytes
  rw [← e, List.map_map]
  have : ∀ x ∈ b, (Char.toNat ∘ Char.ofNat) x = x := by
    intro x hx
    refine (ofNat_toNat rfl (hn _ ?_)).symm
    rw [← e]
    exact List.mem_map_of_mem hx
  rw [List.map_congr_left this, List.map_id']

theorem fieldName_plain {k : Kind} {f : Bool} {n : String} (h : fieldName k f = some n) : ∀ c ∈ n.toList, c ≠ '\x00' := by
  cases k <;> cases f <;> simp only [fieldName, Option.some.injEq, reduceCtorEq] at h <;> subst h <;> decide

/-! ### Numbers -/

/-- A JSON integer within 64 bits. -/
inductive IsNumber : Val → Int → Prop
  | unsigned (n : Nat) : IsNumber (.unsigned n) n
  | integer (z : Int) : IsNumber (.integer z) z

def intOf : Val → Int
  | .unsigned n => n
  | .integer z => z
  | _ => 0

theorem IsNumber.intOf {v : Val} {z : Int} (h : IsNumber v z) : intOf v = z := by cases h <;> rfl

theorem toU16_eq (z : Int) : toU16 z = (z % 65536).toNat := by
  unfold toU16
  rw [BitVec.toNat_ofInt]
  rfl

theorem IsNumber.u16 {D : Doubles} {v : Val} {z : Int} (h : IsNumber v z) : toUint16 D v = .ok (toU16 z) := by
  cases h with
  | unsigned n =>
    simp only [toUint16, toU16_eq]
    congr 1
  | integer z => rfl

theorem fold_numbers {D : Doubles} : ∀ (fs : List (Bytes × Val)) (m : LatMap), (∀ p ∈ fs, ∃ z, IsNumber p.2 z) →
    fs.foldlM (fun (m : LatMap) kv => do
      let n ← toUint16 D kv.2
      return m.put (convertFieldToEnum (name kv.1)) n) m =
    (.ok ((fs.map fun p => (name p.1, intOf p.2)).foldl (fun m kv => m.put (convertFieldToEnum kv.1) (toU16 kv.2)) m) : Except Fail LatMap)
  | [], m, _ => rfl
  | (k, v) :: fs, m, h => by
    obtain ⟨z, hz⟩ := h _ (List.mem_cons_self ..)
    rw [List.foldlM_cons, List.map_cons, List.foldl_cons]
    simp only [hz.u16, hz.intOf]
    exact fold_numbers fs _ fun p hp => h p (List.mem_cons_of_mem _ hp)

/-- The file as `Verif.Config` sees it. -/
theorem fileLatency_doc {D : Doubles} {s t e : Bytes} {top ops : List (Bytes × Val)} (ht : JsonText D.finite (.obj (object top)) t)
    (he : e = [] ∨ ∃ r, e = 0 :: r) (hs : s = t ++ e ∨ s = bom ++ (t ++ e)) (hd : lastOf (bytes "dfcir") top = some (.obj (object ops)))
    (hx : lastOf (bytes "external") top = none) (hn : ∀ k v, lastOf k ops = some v → ∃ z, IsNumber v z) :
    readLatencies D (some s) = .ok (Config.parseLatencyConfig (some ⟨[], some ((object ops).map fun p => (name p.1, intOf p.2))⟩)) := by
  have hp := parse_iff.mpr ⟨t, e, ht, he, hs⟩
  unfold readLatencies
  simp only [hp]
  simp only [parseInternalOps, parseExternalOps, Val.field, lookup_object, hd, hx, Val.items]
  rw [fold_numbers (object ops) _ fun p hp => by
    obtain ⟨k, v⟩ := p
    rw [← lookup_mem (sorted_object ops), lookup_object] at hp
    exact hn k v hp]
  rfl

theorem getLast_names {n : String} (hn : ∀ c ∈ n.toList, c ≠ '\x00') (hu : convertFieldToEnum n ≠ .UNDEFINED) (fs : List (Bytes × Val)) :
    ((fs.map fun p => (name p.1, intOf p.2)).filter fun kv => convertFieldToEnum kv.1 = convertFieldToEnum n).getLast? =
      (lastOf (bytes n) fs).map fun v => (n, intOf v) := by
  have hf : (fs.map fun p => (name p.1, intOf p.2)).filter (fun kv => convertFieldToEnum kv.1 = convertFieldToEnum n) =
      (fs.filter fun p => p.1 = bytes n).map fun p => (n, intOf p.2) := by
    induction fs with
    | nil => rfl
    | cons p fs ih =>
      rw [List.map_cons, List.filter_cons, ih, List.filter_cons]
      by_cases h : p.1 = bytes n
      · have hnm : name p.1 = n := by rw [h, name_bytes]
        rw [if_pos (by rw [hnm]; simp), if_pos (by simpa using h), List.map_cons, hnm]
      · rw [if_neg (fun hc => ?_), if_neg (by simpa using h)]
        have hc : convertFieldToEnum (name p.1) = convertFieldToEnum n := of_decide_eq_true hc
        exact h (name_eq (names_round_trip.2.2.1 _ _ hc (hc ▸ hu)) hn)
  rw [hf]
  unfold lastOf
  rw [List.getLast?_map, Option.map_map]
  rfl

/-- **C89.**  The latencies are what the file says.  The file is a JSON text (possibly after a byte order mark, possibly followed by a zero byte) whose value is
an object; its last member named `dfcir` is an object whose members are integers; there is no member `external`.  Then a unit whose kind has a name in the
file gets the last number given for that name, modulo 2^16, or 1 if there is none; an operation without a unit gets 0. -/
theorem latency_of_file {D : Doubles} {s t e : Bytes} {top ops : List (Bytes × Val)} (ht : JsonText D.finite (.obj (object top)) t)
    (he : e = [] ∨ ∃ r, e = 0 :: r) (hs : s = t ++ e ∨ s = bom ++ (t ++ e)) (hd : lastOf (bytes "dfcir") top = some (.obj (object ops)))
    (hx : lastOf (bytes "external") top = none) (hn : ∀ k v, lastOf k ops = some v → ∃ z, IsNumber v z) (k : Kind) (f : Bool) :
    (∀ n, fieldName k f = some n →
      (∀ v z, lastOf (bytes n) ops = some v → IsNumber v z → fileLatency D (some s) k f = .ok (z % 65536).toNat) ∧
      (lastOf (bytes n) ops = none → fileLatency D (some s) k f = .ok 1)) ∧
    (fieldName k f = none → fileLatency D (some s) k f = .ok 0) := by
  have hl : fileLatency D (some s) k f = .ok (unitLatency (some ⟨[], some ((object ops).map fun p => (name p.1, intOf p.2))⟩) k f) := by
    unfold fileLatency
    rw [fileLatency_doc ht he hs hd hx hn]
    rfl
  rw [hl]
  constructor
  · intro n hfn
    obtain ⟨hsch, hr, hu⟩ := fieldName_resolve hfn
    have hval : unitLatency (some ⟨[], some ((object ops).map fun p => (name p.1, intOf p.2))⟩) k f =
        match lastOf (bytes n) ops with
        | some v => toU16 (intOf v)
        | none => 1 := by
      unfold unitLatency applyConfig
      rw [if_pos hsch, hr]
      simp only [processorConfig, LatMap.put, if_neg hu, Config.parseLatencyConfig, Config.parseInternalOpsConfig, fold_put]
      rw [getLast_names (fieldName_plain hfn) hu, lastOf_sorted (sorted_object ops), lookup_object]
      cases lastOf (bytes n) ops <;> rfl
    rw [hval]
    refine ⟨fun v z h1 h2 => ?_, fun h1 => by rw [h1]⟩
    rw [h1]
    simp only [h2.intOf, toU16_eq]
  · intro h
    cases k <;> simp [fieldName] at h <;>
      simp [unitLatency, applyConfig, Kind.scheduled, resolveInternalOpType, processorConfig, LatMap.put]

/-- No file: every unit with a name takes one cycle. -/
theorem latency_without_file (D : Doubles) {k : Kind} {f : Bool} {n : String} (h : fieldName k f = some n) : fileLatency D none k f = .ok 1 := by
  have := latency_default k f n h
  unfold fileLatency readLatencies
  exact congrArg Except.ok this

/-- A file that is not a JSON text ends the program: nobody catches the exception. -/
theorem not_json_aborts {D : Doubles} {s : Bytes}
    (h : ¬ ∃ v t e, JsonText D.finite v t ∧ (e = [] ∨ ∃ r, e = 0 :: r) ∧ (s = t ++ e ∨ s = bom ++ (t ++ e))) (k : Kind) (f : Bool) :
    fileLatency D (some s) k f = .error .exception ∧ startup D (some s) = .error .exception := by
  have hp : parse D.finite s = none := by
    cases hp : parse D.finite s with
    | none => rfl
    | some v =>
      obtain ⟨t, e, h1⟩ := parse_iff.mp hp
      exact absurd ⟨v, t, e, h1⟩ h
  unfold fileLatency readLatencies startup
  simp only [hp]
  exact ⟨rfl, trivial⟩

/-- The paths at the start: the last member `sim` of config.json is an object, and the paths are the last members `in` and `out` of it. -/
theorem startup_of_file {D : Doubles} {s t e : Bytes} {top sim : List (Bytes × Val)} (ht : JsonText D.finite (.obj (object top)) t)
    (he : e = [] ∨ ∃ r, e = 0 :: r) (hs : s = t ++ e ∨ s = bom ++ (t ++ e)) (hd : lastOf (bytes "sim") top = some (.obj (object sim)))
    {a b : Bytes} (ha : lastOf (bytes "in") sim = some (.str a)) (hb : lastOf (bytes "out") sim = some (.str b)) :
    startup D (some s) = .ok ⟨some (name a), some (name b)⟩ := by
  have hp := parse_iff.mpr ⟨t, e, ht, he, hs⟩
  unfold startup
  simp only [hp]
  simp only [index, lookup_object, hd, Option.getD_some, getString, Val.field, ha, hb, bind, Except.bind, pure, Except.pure]

end Verif.Json
