import Verif.Json.Parse
import Verif.Config.Props
import Verif.Cli.Model
import Mathlib.Data.List.Lex
/-
C89: from the bytes of the configuration files to latencies and to the paths of the simulator.
-/
namespace Verif.Json
open Verif.Config

/-! ### Model -/

/-- The file on disk has no character set; a string of the program is a sequence of bytes. -/
def name (b : Bytes) : String := String.ofList (b.map Char.ofNat)

/-- The bytes of a name. -/
def bytes (s : String) : Bytes := s.toList.map Char.toNat

/-- What the program does with an exception nobody catches (main.cpp:73-78 catches `CLI::ParseError` only), or a conversion the language leaves
undefined. -/
inductive Fail where
  | exception
  | undefined

/-- What is needed to know about doubles: whether the number with this text is finite, and its integer part. -/
structure Doubles where
  finite : Bytes → Bool
  trunc : Bytes → Int

/-- `contains` and `operator[]` (json.hpp:2163-2190, 2701-2706): only objects have fields. -/
def Val.field (k : Bytes) : Val → Option Val
  | .obj fs => fs.lookup k
  | _ => none

/-- `items()` (iteration_proxy.hpp; iter_impl.hpp): the fields of an object in the order of `std::map`, the elements of an array under their numbers,
nothing for `null`, and any other value once, under the empty name. -/
def Val.items : Val → List (Bytes × Val)
  | .obj fs => fs
  | .arr vs => vs.zipIdx.map fun p => (bytes (Nat.repr p.2), p.1)
  | .null => []
  | v => [([], v)]

/-- Conversion to `uint16_t` (from_json.hpp:344-378). -/
def toUint16 (D : Doubles) : Val → Except Fail Nat
  | .unsigned n => .ok (n % 2 ^ 16)
  | .integer z => .ok (toU16 z)
  | .float t => if 0 ≤ D.trunc t ∧ D.trunc t < 2 ^ 16 then .ok (D.trunc t).toNat else .error .undefined
  | .bool b => .ok b.toNat
  | _ => .error .exception

/-- `parseInternalOpsConfig` (options.h:316-321). -/
def parseInternalOps (D : Doubles) (json : Val) (m : LatMap) : Except Fail LatMap :=
  match json.field (bytes "dfcir") with
  | none => .ok m
  | some v => v.items.foldlM (fun m kv => do
      let n ← toUint16 D kv.2
      return m.put (convertFieldToEnum (name kv.1)) n) m

/-- `parseExternalOpsConfig` (options.h:323-328).  The result is stored and never used. -/
def parseExternalOps (D : Doubles) (json : Val) : Except Fail (List (Bytes × Nat)) :=
  match json.field (bytes "external") with
  | none => .ok []
  | some v => v.items.foldlM (fun m kv => do
      let n ← toUint16 D kv.2
      return m ++ [(kv.1, n)]) []

/-- `parseLatencyConfig` (options.h:330-337); `none`: no file is named, or it cannot be opened. -/
def readLatencies (D : Doubles) (file : Option Bytes) : Except Fail LatMap :=
  match file with
  | none => .ok fun _ => none
  | some s => match parse D.finite s with
    | none => .error .exception
    | some json => do
      let m ← parseInternalOps D json fun _ => none
      let _ ← parseExternalOps D json
      return m

/-- From the bytes of the file to the latency of a unit (dfcir_processor.cpp:48-54; DFCIRScheduleUtils.cpp:13-43). -/
def fileLatency (D : Doubles) (file : Option Bytes) (k : Kind) (resultFloat : Bool) : Except Fail Nat := do
  let m ← readLatencies D file
  return applyConfig (processorConfig m) k resultFloat

/-- `get<std::string>` of a field, if it is there (options.h:150-162). -/
def getString (json : Val) (k : Bytes) : Except Fail (Option String) :=
  match json.field k with
  | none => .ok none
  | some (.str s) => .ok (some (name s))
  | some _ => .error .exception

/-- `json[key]` (json.hpp:2141-2160): a field that is not there is added with the value `null`, `null` becomes an object, anything else throws. -/
def index (json : Val) (k : Bytes) : Except Fail Val :=
  match json with
  | .obj fs => .ok ((fs.lookup k).getD .null)
  | .null => .ok .null
  | _ => .error .exception

/-- `read(config)` and `fromJson` of the program (options.h:126-142, 367-370, 404-407): config.json at the start. -/
def startup (D : Doubles) (file : Option Bytes) : Except Fail Cli.SimConfig :=
  match file with
  | none => .ok ⟨none, none⟩
  | some s => match parse D.finite s with
    | none => .error .exception
    | some json => do
      let _ ← index json (bytes "hls")
      let sim ← index json (bytes "sim")
      let inp ← getString sim (bytes "in")
      let out ← getString sim (bytes "out")
      return ⟨inp, out⟩

/-! ### Objects -/

/-- The value of the last member of that name. -/
def lastOf (k : Bytes) (ms : List (Bytes × Val)) : Option Val := ((ms.filter fun m => m.1 = k).getLast?).map Prod.snd

theorem lookup_setField (k : Bytes) (v : Val) (j : Bytes) : ∀ fs : List (Bytes × Val),
    (setField k v fs).lookup j = if j = k then some v else fs.lookup j
  | [] => by
    simp only [setField, List.lookup_cons, List.lookup_nil]
    by_cases h : j = k
    · simp [h]
    · rw [if_neg h, beq_eq_false_iff_ne.mpr h]
  | (k', v') :: r => by
    unfold setField
    by_cases h1 : k = k'
    · subst h1
      rw [if_pos rfl]
      simp only [List.lookup_cons]
      by_cases h : j = k
      · simp [h]
      · rw [if_neg h, beq_eq_false_iff_ne.mpr h]
    · rw [if_neg h1]
      by_cases h2 : k < k'
      · rw [if_pos h2, List.lookup_cons]
        by_cases h : j = k
        · simp [h]
        · rw [if_neg h, beq_eq_false_iff_ne.mpr h]
      · rw [if_neg h2, List.lookup_cons, lookup_setField k v j r, List.lookup_cons]
        by_cases h : j = k
        · rw [if_pos h, if_pos h, beq_eq_false_iff_ne.mpr (h ▸ h1)]
        · rw [if_neg h, if_neg h]

theorem lookup_fold (k : Bytes) (ms : List (Bytes × Val)) : ∀ o : List (Bytes × Val),
    (ms.foldl (fun o m => setField m.1 m.2 o) o).lookup k = ((lastOf k ms).or (o.lookup k)) := by
  induction ms with
  | nil => intro o; rfl
  | cons m ms ih =>
    intro o
    rw [List.foldl_cons, ih, lookup_setField]
    unfold lastOf
    rw [List.filter_cons]
    by_cases h : m.1 = k
    · rw [if_pos h.symm, if_pos (by simpa using h), List.getLast?_cons]
      cases (ms.filter fun m => m.1 = k).getLast? <;> simp
    · rw [if_neg (fun e => h e.symm), if_neg (by simpa using h)]

/-- A field of an object has the value of the last member of that name. -/
theorem lookup_object (k : Bytes) (ms : List (Bytes × Val)) : (object ms).lookup k = lastOf k ms := by
  unfold object
  rw [lookup_fold]
  simp

/-- The fields of an object are sorted by name, so no two of them have the same name. -/
def Sorted (fs : List (Bytes × Val)) : Prop := fs.Pairwise fun a b => a.1 < b.1

theorem mem_setField {k : Bytes} {v : Val} : ∀ {fs : List (Bytes × Val)} {p : Bytes × Val}, p ∈ setField k v fs → p = (k, v) ∨ p ∈ fs
  | [], p, h => by simpa [setField] using h
  | (k', v') :: r, p, h => by
    unfold setField at h
    split at h
    · rcases List.mem_cons.mp h with h | h
      · exact .inl h
      · exact .inr (List.mem_cons_of_mem _ h)
    · split at h
      · rcases List.mem_cons.mp h with h | h
        · exact .inl h
        · exact .inr h
      · rcases List.mem_cons.mp h with h | h
        · exact .inr (h ▸ List.mem_cons_self ..)
        · rcases mem_setField h with h | h
          · exact .inl h
          · exact .inr (List.mem_cons_of_mem _ h)

theorem sorted_setField {k : Bytes} {v : Val} : ∀ {fs : List (Bytes × Val)}, Sorted fs → Sorted (setField k v fs)
  | [], _ => by simp [setField, Sorted]
  | (k', v') :: r, h => by
    unfold Sorted at h
    rw [List.pairwise_cons] at h
    unfold setField
    split
    · rename_i e
      subst e
      exact List.pairwise_cons.mpr ⟨h.1, h.2⟩
    · rename_i e
      split
      · rename_i hlt
        refine List.pairwise_cons.mpr ⟨fun p hp => ?_, List.pairwise_cons.mpr h⟩
        rcases List.mem_cons.mp hp with rfl | hp
        · exact hlt
        · exact lt_trans hlt (h.1 p hp)
      · rename_i hlt
        refine List.pairwise_cons.mpr ⟨fun p hp => ?_, sorted_setField h.2⟩
        rcases mem_setField hp with rfl | hp
        · exact lt_of_le_of_ne (not_lt.mp hlt) (Ne.symm e)
        · exact h.1 p hp

theorem sorted_object (ms : List (Bytes × Val)) : Sorted (object ms) := by
  unfold object
  have : ∀ o, Sorted o → Sorted (ms.foldl (fun o m => setField m.1 m.2 o) o) := by
    induction ms with
    | nil => intro o h; exact h
    | cons m ms ih => intro o h; exact ih _ (sorted_setField h)
  exact this [] List.Pairwise.nil

theorem lookup_mem {k : Bytes} {v : Val} : ∀ {fs : List (Bytes × Val)}, Sorted fs → (fs.lookup k = some v ↔ (k, v) ∈ fs)
  | [], _ => by simp
  | (k', v') :: r, h => by
    unfold Sorted at h
    rw [List.pairwise_cons] at h
    rw [List.lookup_cons]
    by_cases e : k = k'
    · subst e
      simp only [beq_self_eq_true, List.mem_cons, Prod.mk.injEq, true_and, Option.some.injEq]
      constructor
      · exact fun e => .inl e.symm
      · rintro (e | hm)
        · exact e.symm
        · exact absurd (h.1 _ hm) (lt_irrefl _)
    · rw [beq_eq_false_iff_ne.mpr e]
      simp only [List.mem_cons, Prod.mk.injEq, e, false_and, false_or]
      exact lookup_mem h.2

end Verif.Json
