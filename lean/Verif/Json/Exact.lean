import Verif.Json.Latency
import Mathlib.Data.List.Forall2
/-
C89, exactly: which configuration files are read, and what is read from them.
-/
namespace Verif.Json
open Verif.Config

/-! ### Specification -/

/-- The file `s` holds `v`: a JSON text, possibly after a byte order mark, possibly followed by a zero byte and anything. -/
def IsFile (fin : Bytes → Bool) (v : Val) (s : Bytes) : Prop :=
  ∃ t e, JsonText fin v t ∧ (e = [] ∨ ∃ r, e = 0 :: r) ∧ (s = t ++ e ∨ s = bom ++ (t ++ e))

/-- The number of stages a value stands for: an integer modulo 2^16, the integer part of a number that is not one, if that is within 16 bits; `false` and
`true` count as 0 and 1. -/
inductive Stages (D : Doubles) : Val → Nat → Prop
  | unsigned (n : Nat) : Stages D (.unsigned n) (n % 65536)
  | integer (z : Int) : Stages D (.integer z) (z % 65536).toNat
  | float {t : Bytes} {n : Nat} : D.trunc t = n → n < 65536 → Stages D (.float t) n
  | false : Stages D (.bool false) 0
  | true : Stages D (.bool true) 1

/-- Every member of an object, or every element of an array, stands for a number of stages; a value that is neither does so itself; or it is `null`. -/
inductive Numbers (D : Doubles) : Val → Prop
  | obj {fs : List (Bytes × Val)} : (∀ k v, (k, v) ∈ fs → ∃ n, Stages D v n) → Numbers D (.obj fs)
  | arr {vs : List Val} : (∀ v ∈ vs, ∃ n, Stages D v n) → Numbers D (.arr vs)
  | null : Numbers D .null
  | one {v : Val} {n : Nat} : Stages D v n → Numbers D v

/-- The member `k` of `v`, if there is one, is `Numbers`. -/
def FieldNumbers (D : Doubles) (v : Val) (k : Bytes) : Prop := ∀ w, v.field k = some w → Numbers D w

/-- The latency `l` of a unit of kind `k` (`f`: floating-point) in the file with the value `v`: 0 for operations that have no unit; the number of the member
with the name of the unit of the member `dfcir`; 1 if there is none. -/
inductive Latency (D : Doubles) (v : Val) (k : Kind) (f : Bool) : Nat → Prop
  | wire : fieldName k f = none → Latency D v k f 0
  | given {n : String} {ops x : Val} {l : Nat} : fieldName k f = some n → v.field (bytes "dfcir") = some ops → ops.field (bytes n) = some x → Stages D x l →
      Latency D v k f l
  | absent {n : String} : fieldName k f = some n → (∀ ops, v.field (bytes "dfcir") = some ops → ops.field (bytes n) = none) → Latency D v k f 1

/-- A member of an object, if there is one, that is a string. -/
inductive StringAt (v : Option Val) (k : Bytes) : Option String → Prop
  | absent : (∀ w, v = some w → w.field k = none) → StringAt v k none
  | given {w : Val} {s : Bytes} : v = some w → w.field k = some (.str s) → StringAt v k (some (name s))

/-- The paths of the simulator in the configuration file of the program: the strings `in` and `out` of the member `sim`.  There may be no file, and it may
hold `null`. -/
inductive Settings (D : Doubles) : Option Bytes → Option String → Option String → Prop
  | missing : Settings D none none none
  | null {s : Bytes} : IsFile D.finite .null s → Settings D (some s) none none
  | object {s : Bytes} {fs : List (Bytes × Val)} {a b : Option String} : IsFile D.finite (.obj fs) s →
      StringAt ((Val.obj fs).field (bytes "sim")) (bytes "in") a → StringAt ((Val.obj fs).field (bytes "sim")) (bytes "out") b → Settings D (some s) a b

/-! ### Proofs -/

theorem parse_file {fin : Bytes → Bool} {v : Val} {s : Bytes} : parse fin s = some v ↔ IsFile fin v s := parse_iff

theorem toUint16_iff {D : Doubles} {v : Val} {n : Nat} : toUint16 D v = .ok n ↔ Stages D v n := by
  constructor
  · intro h
    unfold toUint16 at h
    split at h
    · cases h; exact .unsigned _
    · cases h; rw [toU16_eq]; exact .integer _
    · split at h
      · rename_i hc
        cases h
        exact .float (by omega) (by omega)
      · cases h
    · rename_i b
      cases h
      cases b
      · exact .false
      · exact .true
    · cases h
  · intro h
    cases h with
    | unsigned n => rfl
    | integer z => exact congrArg Except.ok (toU16_eq z)
    | float h1 h2 =>
      simp only [toUint16]
      rw [if_pos (by omega)]
      congr 1
      omega
    | false => rfl
    | true => rfl

theorem stages_lt {D : Doubles} {v : Val} {n : Nat} (h : Stages D v n) : n < 65536 := by
  cases h with
  | unsigned n => omega
  | integer z => omega
  | float _ h => exact h
  | false => omega
  | true => omega

/-- The numbers of a list of values. -/
def numbersOf (D : Doubles) (fs : List (Bytes × Val)) : Except Fail (List Nat) := fs.mapM fun kv => toUint16 D kv.2

theorem fold_eq {D : Doubles} {β : Type} (g : β → Bytes × Val → Nat → β) : ∀ (fs : List (Bytes × Val)) (m : β),
    fs.foldlM (fun m kv => do
      let n ← toUint16 D kv.2
      return g m kv n) m = (numbersOf D fs).map fun ns => (fs.zip ns).foldl (fun m p => g m p.1 p.2) m
  | [], m => rfl
  | kv :: fs, m => by
    rw [List.foldlM_cons]
    unfold numbersOf
    rw [List.mapM_cons]
    cases h : toUint16 D kv.2 with
    | error e => rfl
    | ok n =>
      have ih := fold_eq (D := D) g fs (g m kv n)
      unfold numbersOf at ih
      show fs.foldlM _ (g m kv n) = _
      rw [ih]
      cases fs.mapM (fun kv => toUint16 D kv.2) <;> rfl

theorem numbersOf_ok {D : Doubles} : ∀ {fs : List (Bytes × Val)} {ns : List Nat},
    numbersOf D fs = .ok ns ↔ List.Forall₂ (fun kv n => Stages D kv.2 n) fs ns
  | [], ns => by
    unfold numbersOf
    simp only [List.mapM_nil, List.forall₂_nil_left_iff, pure, Except.pure, Except.ok.injEq]
    exact eq_comm
  | kv :: fs, ns => by
    unfold numbersOf
    rw [List.mapM_cons]
    cases h : toUint16 D kv.2 with
    | error e =>
      refine ⟨(fun h => by cases h), fun h' => ?_⟩
      cases h' with
      | cons h1 _ => rw [toUint16_iff.mpr h1] at h; cases h
    | ok n =>
      have ih := fun ns => numbersOf_ok (D := D) (fs := fs) (ns := ns)
      unfold numbersOf at ih
      cases h2 : fs.mapM (fun kv => toUint16 D kv.2) with
      | error e =>
        refine ⟨(fun h => by cases h), fun h' => ?_⟩
        cases h' with
        | cons _ h3 => rw [(ih _).mpr h3] at h2; cases h2
      | ok ns' =>
        constructor
        · intro h'
          cases h'
          exact .cons (toUint16_iff.mp h) ((ih _).mp h2)
        · intro h'
          cases h' with
          | cons h1 h3 =>
            rw [toUint16_iff.mpr h1] at h
            rw [(ih _).mpr h3] at h2
            cases h; cases h2
            rfl

theorem forall₂_exists {α β : Type} {R : α → β → Prop} : ∀ {l : List α}, (∀ a ∈ l, ∃ b, R a b) → ∃ m, List.Forall₂ R l m
  | [], _ => ⟨[], .nil⟩
  | a :: l, h => by
    obtain ⟨b, hb⟩ := h a (List.mem_cons_self ..)
    obtain ⟨m, hm⟩ := forall₂_exists fun a ha => h a (List.mem_cons_of_mem _ ha)
    exact ⟨b :: m, .cons hb hm⟩

theorem forall₂_left {α β : Type} {R : α → β → Prop} {l : List α} {m : List β} (h : List.Forall₂ R l m) : ∀ a ∈ l, ∃ b, R a b := by
  induction h with
  | nil => intro a ha; cases ha
  | cons h1 _ ih =>
    intro a ha
    rcases List.mem_cons.mp ha with rfl | ha
    · exact ⟨_, h1⟩
    · exact ih a ha

theorem numbers_iff {D : Doubles} {v : Val} : Numbers D v ↔ ∃ ns, numbersOf D v.items = .ok ns := by
  simp only [numbersOf_ok]
  constructor
  · intro h
    refine forall₂_exists fun p hp => ?_
    cases h with
    | obj h => exact h p.1 p.2 hp
    | arr h =>
      simp only [Val.items, List.mem_map] at hp
      obtain ⟨q, hq, rfl⟩ := hp
      exact h _ (by obtain ⟨q1, q2⟩ := q; exact (List.mem_zipIdx' hq).2 ▸ List.getElem_mem _)
    | null => cases hp
    | one h =>
      cases h <;> (simp only [Val.items, List.mem_singleton] at hp; subst hp)
      · exact ⟨_, .unsigned _⟩
      · exact ⟨_, .integer _⟩
      · exact ⟨_, .float (by assumption) (by assumption)⟩
      · exact ⟨_, .false⟩
      · exact ⟨_, .true⟩
  · rintro ⟨ns, h⟩
    have h := forall₂_left h
    cases v with
    | obj fs => exact .obj fun k v hm => h (k, v) hm
    | arr vs =>
      refine .arr fun v hv => ?_
      obtain ⟨i, hi, rfl⟩ := List.mem_iff_getElem.mp hv
      exact h (bytes (Nat.repr i), vs[i]) (by
        simp only [Val.items, List.mem_map]
        exact ⟨(vs[i], i), List.mk_mem_zipIdx_iff_getElem?.mpr (List.getElem?_eq_getElem hi), rfl⟩)
    | null => exact .null
    | bool b => obtain ⟨n, hn⟩ := h ([], .bool b) (by simp [Val.items]); exact .one hn
    | unsigned n => exact .one (.unsigned n)
    | integer z => exact .one (.integer z)
    | float t => obtain ⟨n, hn⟩ := h ([], .float t) (by simp [Val.items]); exact .one hn
    | str s => obtain ⟨n, hn⟩ := h ([], .str s) (by simp [Val.items]); cases hn

/-! ### Objects are sorted -/

theorem text_sorted {fin : Bytes → Bool} {fs : List (Bytes × Val)} {t : Bytes} (h : Text fin (.obj fs) t) : Sorted fs := by
  generalize hv : Val.obj fs = v at h
  cases h with
  | num n _ _ => exfalso; unfold NumLit.val at hv; split_ifs at hv
  | emptyObj _ => cases hv; exact List.Pairwise.nil
  | obj hm => cases hv; exact sorted_object _
  | _ => cases hv

theorem mem_object {p : Bytes × Val} {ms : List (Bytes × Val)} (h : p ∈ object ms) : p ∈ ms := by
  obtain ⟨k, v⟩ := p
  rw [← lookup_mem (sorted_object ms), lookup_object] at h
  unfold lastOf at h
  simp only [Option.map_eq_some_iff] at h
  obtain ⟨q, hq, rfl⟩ := h
  have := List.mem_filter.mp (List.mem_of_getLast? hq)
  have e : q.1 = k := by simpa using this.2
  rw [← e]
  exact this.1

theorem members_text {fin : Bytes → Bool} : ∀ {ms : List (Bytes × Val)} {t : Bytes}, Members fin ms t → ∀ p ∈ ms, ∃ t, Text fin p.2 t
  | [], _, h => by intro p hp; cases hp
  | (k, v) :: ms, t, h => by
    intro p hp
    cases h with
    | one _ _ _ _ h _ =>
      simp only [List.mem_singleton] at hp
      subst hp
      exact ⟨_, h⟩
    | more _ _ _ _ h _ hr =>
      rcases List.mem_cons.mp hp with rfl | hp
      · exact ⟨_, h⟩
      · exact members_text hr p hp

theorem field_text {fin : Bytes → Bool} {v w : Val} {t k : Bytes} (h : Text fin v t) (hw : v.field k = some w) : ∃ t, Text fin w t := by
  cases v with
  | obj fs =>
    have hm : (k, w) ∈ fs := (lookup_mem (text_sorted h)).mp hw
    generalize hv : Val.obj fs = v at h
    cases h with
    | num n _ _ => exfalso; unfold NumLit.val at hv; split_ifs at hv
    | emptyObj _ => cases hv; cases hm
    | obj h => cases hv; exact members_text h _ (mem_object hm)
    | _ => cases hv
  | _ => cases hw

/-! ### The file as the scheduler sees it -/

/-- The members of `dfcir` with the numbers read. -/
def opsRead (D : Doubles) (json : Val) : Except Fail (Option (List (String × Int))) :=
  match json.field (bytes "dfcir") with
  | none => .ok none
  | some v => (numbersOf D v.items).map fun ns => some ((v.items.zip ns).map fun p => (name p.1.1, (p.2 : Int)))

/-- The part of a file that is used, with the numbers read. -/
def docOf (D : Doubles) (s : Bytes) : Except Fail JsonDoc :=
  match parse D.finite s with
  | none => .error .exception
  | some json => do
    let ops ← opsRead D json
    let _ ← parseExternalOps D json
    return ⟨[], ops⟩

theorem toU16_small {n : Nat} (h : n < 65536) : toU16 (n : Int) = n := by
  rw [toU16_eq]
  omega

theorem zip_puts {D : Doubles} {fs : List (Bytes × Val)} {ns : List Nat} (h : List.Forall₂ (fun kv n => Stages D kv.2 n) fs ns) : ∀ m : LatMap,
    (fs.zip ns).foldl (fun m p => m.put (convertFieldToEnum (name p.1.1)) p.2) m =
      ((fs.zip ns).map fun p => (name p.1.1, (p.2 : Int))).foldl (fun m kv => m.put (convertFieldToEnum kv.1) (toU16 kv.2)) m := by
  induction h with
  | nil => intro m; rfl
  | cons h _ ih =>
    intro m
    rw [List.zip_cons_cons, List.map_cons, List.foldl_cons, List.foldl_cons, toU16_small (stages_lt h), ih]

theorem internal_eq {D : Doubles} {json : Val} : parseInternalOps D json (fun _ => none) =
    (opsRead D json).map fun ops => Config.parseInternalOpsConfig ⟨[], ops⟩ fun _ => none := by
  unfold parseInternalOps opsRead
  cases json.field (bytes "dfcir") with
  | none => rfl
  | some v =>
    refine (fold_eq (fun (m : LatMap) kv n => m.put (convertFieldToEnum (name kv.1)) n) v.items _).trans ?_
    show Except.map _ (numbersOf D v.items) = Except.map _ (Except.map _ (numbersOf D v.items))
    cases h : numbersOf D v.items with
    | error e => rfl
    | ok ns => exact congrArg Except.ok (zip_puts (numbersOf_ok.mp h) _)

/-- `Verif.Config` sees the file through `docOf`. -/
theorem docOf_reads (D : Doubles) (s : Bytes) : readLatencies D (some s) = (docOf D s).map fun d => Config.parseLatencyConfig (some d) := by
  unfold readLatencies docOf
  cases h : parse D.finite s with
  | none => simp only [h]; rfl
  | some json =>
    simp only [h, internal_eq]
    cases opsRead D json with
    | error e => rfl
    | ok ops => cases parseExternalOps D json <;> rfl

theorem opsRead_ok {D : Doubles} {v : Val} : (∃ l, opsRead D v = .ok l) ↔ FieldNumbers D v (bytes "dfcir") := by
  unfold opsRead FieldNumbers
  cases v.field (bytes "dfcir") with
  | none => simp
  | some w =>
    simp only [Option.some.injEq, forall_eq']
    rw [numbers_iff]
    cases numbersOf D w.items with
    | error e => exact ⟨(fun ⟨_, h⟩ => by cases h), fun ⟨_, h⟩ => by cases h⟩
    | ok ns => exact ⟨fun _ => ⟨_, rfl⟩, fun _ => ⟨_, rfl⟩⟩

theorem external_ok {D : Doubles} {v : Val} : (∃ l, parseExternalOps D v = .ok l) ↔ FieldNumbers D v (bytes "external") := by
  unfold parseExternalOps FieldNumbers
  cases v.field (bytes "external") with
  | none => simp
  | some w =>
    simp only [Option.some.injEq, forall_eq']
    rw [numbers_iff]
    have := fold_eq (D := D) (fun (m : List (Bytes × Nat)) kv n => m ++ [(kv.1, n)]) w.items []
    simp only [this]
    cases numbersOf D w.items with
    | error e => exact ⟨(fun ⟨_, h⟩ => by cases h), fun ⟨_, h⟩ => by cases h⟩
    | ok ns => exact ⟨fun _ => ⟨_, rfl⟩, fun _ => ⟨_, rfl⟩⟩

/-- **C89, which files are read.**  A latency file is read exactly if it is a JSON text in which the members `dfcir` and `external`, if they are there, give
numbers. -/
theorem docOf_ok {D : Doubles} {s : Bytes} : (∃ d, docOf D s = .ok d) ↔
    ∃ v, IsFile D.finite v s ∧ FieldNumbers D v (bytes "dfcir") ∧ FieldNumbers D v (bytes "external") := by
  unfold docOf
  constructor
  · rintro ⟨d, h⟩
    cases hp : parse D.finite s with
    | none => rw [hp] at h; cases h
    | some v =>
      simp only [hp] at h
      refine ⟨v, parse_file.mp hp, opsRead_ok.mp ?_, external_ok.mp ?_⟩
      · cases ho : opsRead D v with
        | ok l => exact ⟨l, rfl⟩
        | error e => rw [ho] at h; cases h
      · cases ho : opsRead D v with
        | error e => rw [ho] at h; cases h
        | ok l =>
          cases hx : parseExternalOps D v with
          | ok l => exact ⟨l, rfl⟩
          | error e => rw [ho, hx] at h; cases h
  · rintro ⟨v, hf, hd, hx⟩
    obtain ⟨l, hl⟩ := external_ok.mpr hx
    obtain ⟨o, ho⟩ := opsRead_ok.mpr hd
    refine ⟨⟨[], o⟩, ?_⟩
    rw [parse_file.mpr hf]
    simp only [ho, hl]
    rfl

theorem names_zip {D : Doubles} {n : String} (hn : ∀ c ∈ n.toList, c ≠ '\x00') (hu : convertFieldToEnum n ≠ .UNDEFINED) {fs : List (Bytes × Val)} {ns : List Nat}
    (h : List.Forall₂ (fun kv n => Stages D kv.2 n) fs ns) :
    (∀ x, fs.lookup (bytes n) = some x → Sorted fs → ∃ l, Stages D x l ∧
      (((fs.zip ns).map fun p => (name p.1.1, (p.2 : Int))).filter fun kv => convertFieldToEnum kv.1 = convertFieldToEnum n).getLast? = some (n, (l : Int))) ∧
    (fs.lookup (bytes n) = none →
      (((fs.zip ns).map fun p => (name p.1.1, (p.2 : Int))).filter fun kv => convertFieldToEnum kv.1 = convertFieldToEnum n) = []) := by
  have hsame : ∀ k, convertFieldToEnum (name k) = convertFieldToEnum n ↔ k = bytes n := by
    intro k
    constructor
    · intro hc
      exact name_eq (names_round_trip.2.2.1 _ _ hc (hc ▸ hu)) hn
    · rintro rfl
      rw [name_bytes]
  have hnone : ∀ {fs : List (Bytes × Val)} {ns : List Nat}, (∀ p ∈ fs, p.1 ≠ bytes n) →
      (((fs.zip ns).map fun p => (name p.1.1, (p.2 : Int))).filter fun kv => convertFieldToEnum kv.1 = convertFieldToEnum n) = [] := by
    intro fs ns hk
    rw [List.filter_eq_nil_iff]
    intro kv hkv
    obtain ⟨q, hq, rfl⟩ := List.mem_map.mp hkv
    have := hk _ (List.of_mem_zip hq).1
    simpa [hsame] using this
  refine ⟨?_, ?_⟩
  · induction h with
    | nil => intro x hx; cases hx
    | @cons kv l fs ns h1 h2 ih =>
      obtain ⟨k, v⟩ := kv
      intro x hx hs
      rw [List.lookup_cons] at hx
      unfold Sorted at hs
      rw [List.pairwise_cons] at hs
      rw [List.zip_cons_cons, List.map_cons, List.filter_cons]
      by_cases e : k = bytes n
      · subst e
        simp only [beq_self_eq_true, Option.some.injEq] at hx
        subst hx
        refine ⟨l, h1, ?_⟩
        rw [if_pos (by simp [name_bytes]), hnone fun p hp e => absurd (hs.1 p hp) (by rw [e]; exact lt_irrefl _), name_bytes]
        rfl
      · rw [beq_eq_false_iff_ne.mpr (Ne.symm e)] at hx
        obtain ⟨l', g1, g2⟩ := ih x hx hs.2
        exact ⟨l', g1, by rw [if_neg (by simpa [hsame] using e)]; exact g2⟩
  · intro hx
    refine hnone fun p hp e => ?_
    rw [List.lookup_eq_none_iff] at hx
    have := hx p hp
    rw [e] at this
    simp at this

theorem latency_fun {D : Doubles} {v : Val} {k : Kind} {f : Bool} {l l' : Nat} (h : Latency D v k f l) (h' : Latency D v k f l') : l = l' := by
  cases h with
  | wire h1 =>
    cases h' with
    | wire => rfl
    | given g1 => rw [h1] at g1; cases g1
    | absent g1 => rw [h1] at g1; cases g1
  | given h1 h2 h3 h4 =>
    cases h' with
    | wire g1 => rw [h1] at g1; cases g1
    | given g1 g2 g3 g4 =>
      rw [h1] at g1; cases g1
      rw [h2] at g2; cases g2
      rw [h3] at g3; cases g3
      rw [← toUint16_iff] at h4 g4
      rw [h4] at g4
      cases g4
      rfl
    | absent g1 g2 => rw [h1] at g1; cases g1; rw [g2 _ h2] at h3; cases h3
  | absent h1 h2 =>
    cases h' with
    | wire g1 => rw [h1] at g1; cases g1
    | given g1 g2 g3 g4 => rw [h1] at g1; cases g1; rw [h2 _ g2] at g3; cases g3
    | absent => rfl

theorem lookup_key {k : Bytes} {v : Val} : ∀ {fs : List (Bytes × Val)}, fs.lookup k = some v → (k, v) ∈ fs
  | [], h => by cases h
  | (k', v') :: r, h => by
    rw [List.lookup_cons] at h
    by_cases e : k = k'
    · subst e
      simp only [beq_self_eq_true, Option.some.injEq] at h
      subst h
      exact List.mem_cons_self ..
    · rw [beq_eq_false_iff_ne.mpr e] at h
      exact List.mem_cons_of_mem _ (lookup_key h)

/-- The names of units are not numbers. -/
theorem fieldName_letters {k : Kind} {f : Bool} {n : String} (h : fieldName k f = some n) (i : Nat) : Nat.repr i ≠ n := by
  intro e
  have hd : n.toList.all Char.isDigit = true := by
    rw [← e, List.all_eq_true]
    intro c hc
    have : (Nat.repr i).toList = Nat.toDigits 10 i := by simp [Nat.repr]
    rw [this] at hc
    exact Nat.isDigit_of_mem_toDigits (by decide) (by decide) hc
  clear e
  cases k <;> cases f <;> simp only [fieldName, Option.some.injEq, reduceCtorEq] at h <;> subst h <;> revert hd <;> decide

theorem fieldName_ne {k : Kind} {f : Bool} {n : String} (h : fieldName k f = some n) : n ≠ name [] := by
  cases k <;> cases f <;> simp only [fieldName, Option.some.injEq, reduceCtorEq] at h <;> subst h <;> decide

/-- **C89, what is read.**  The latencies of every unit. -/
theorem docOf_latency {D : Doubles} {s : Bytes} {v : Val} {d : JsonDoc} (hf : IsFile D.finite v s) (hd : docOf D s = .ok d) (k : Kind) (f : Bool) :
    Latency D v k f (unitLatency (some d) k f) := by
  unfold docOf at hd
  rw [parse_file.mpr hf] at hd
  simp only at hd
  cases ho : opsRead D v with
  | error e => rw [ho] at hd; cases hd
  | ok ops =>
    cases hx : parseExternalOps D v with
    | error e => rw [ho, hx] at hd; cases hd
    | ok l =>
      rw [ho, hx] at hd
      cases hd
      cases hn : fieldName k f with
      | none =>
        have : unitLatency (some ⟨[], ops⟩) k f = 0 := by
          cases k <;> simp [fieldName] at hn <;> simp [unitLatency, applyConfig, Kind.scheduled, resolveInternalOpType, processorConfig, LatMap.put]
        rw [this]
        exact .wire hn
      | some n =>
        obtain ⟨hsch, hr, hu⟩ := fieldName_resolve hn
        have hval : unitLatency (some ⟨[], ops⟩) k f =
            match ((ops.getD []).filter fun kv => convertFieldToEnum kv.1 = convertFieldToEnum n).getLast? with
            | some kv => toU16 kv.2
            | none => 1 := by
          unfold unitLatency applyConfig
          rw [if_pos hsch, hr]
          cases ops with
          | none => simp only [processorConfig, LatMap.put, if_neg hu, Config.parseLatencyConfig, Config.parseInternalOpsConfig]; rfl
          | some fs =>
            simp only [processorConfig, LatMap.put, if_neg hu, Config.parseLatencyConfig, Config.parseInternalOpsConfig, fold_put, Option.getD_some]
            cases (fs.filter fun kv => decide (convertFieldToEnum kv.1 = convertFieldToEnum n)).getLast? <;> rfl
        rw [hval]
        unfold opsRead at ho
        cases hw : v.field (bytes "dfcir") with
        | none =>
          rw [hw] at ho
          cases ho
          exact .absent hn fun ops h => by rw [hw] at h; cases h
        | some w =>
          rw [hw] at ho
          simp only at ho
          cases hns : numbersOf D w.items with
          | error e => rw [hns] at ho; cases ho
          | ok ns =>
            rw [hns] at ho
            cases ho
            have h2 := names_zip (fieldName_plain hn) hu (numbersOf_ok.mp hns)
            simp only [Option.getD_some]
            cases hi : w.items.lookup (bytes n) with
            | none =>
              rw [h2.2 hi]
              refine .absent hn fun ops h => ?_
              rw [hw] at h
              cases h
              cases w with
              | obj fs => exact hi
              | _ => rfl
            | some x =>
              cases w with
              | obj fs =>
                obtain ⟨t, e, ⟨_, hT, _⟩, -, -⟩ := hf
                obtain ⟨t', hT'⟩ := field_text hT hw
                obtain ⟨l, g1, g2⟩ := h2.1 x hi (text_sorted hT')
                rw [g2]
                simp only [toU16_small (stages_lt g1)]
                exact .given hn hw hi g1
              | arr vs =>
                exfalso
                have hi := lookup_key hi
                obtain ⟨q, -, hq⟩ := List.mem_map.mp hi
                have e := congrArg name (congrArg Prod.fst hq)
                simp only [name_bytes] at e
                exact fieldName_letters hn _ e
              | null => cases hi
              | _ =>
                exfalso
                have hi := lookup_key hi
                simp only [Val.items, List.mem_singleton, Prod.mk.injEq] at hi
                have e := congrArg name hi.1
                rw [name_bytes] at e
                exact (fieldName_ne hn) e

/-- **C89, the latency file.**  Its latencies are exactly those of `Latency`; every other file ends the program. -/
theorem fileLatency_iff {D : Doubles} {s : Bytes} {k : Kind} {f : Bool} {l : Nat} : fileLatency D (some s) k f = .ok l ↔
    ∃ v, IsFile D.finite v s ∧ FieldNumbers D v (bytes "dfcir") ∧ FieldNumbers D v (bytes "external") ∧ Latency D v k f l := by
  have hl : fileLatency D (some s) k f = (docOf D s).map fun d => unitLatency (some d) k f := by
    unfold fileLatency
    rw [docOf_reads]
    cases docOf D s <;> rfl
  rw [hl]
  constructor
  · intro h
    cases hd : docOf D s with
    | error e => rw [hd] at h; cases h
    | ok d =>
      rw [hd] at h
      cases h
      obtain ⟨v, h1, h2, h3⟩ := docOf_ok.mp ⟨d, hd⟩
      exact ⟨v, h1, h2, h3, docOf_latency h1 hd k f⟩
  · rintro ⟨v, h1, h2, h3, h4⟩
    obtain ⟨d, hd⟩ := docOf_ok.mpr ⟨v, h1, h2, h3⟩
    rw [hd]
    exact congrArg Except.ok (latency_fun (docOf_latency h1 hd k f) h4)

theorem stringAt_field {v : Val} {k : Bytes} {o : Option String} : getString v k = .ok o ↔
    (v.field k = none ∧ o = none) ∨ ∃ s, v.field k = some (.str s) ∧ o = some (name s) := by
  unfold getString
  cases h : v.field k with
  | none => simp [eq_comm]
  | some w =>
    cases w <;> simp [eq_comm]

/-- **C89, config.json.**  The program starts exactly with the files `Settings` allows, and with these paths. -/
theorem startup_iff {D : Doubles} {file : Option Bytes} {a b : Option String} : startup D file = .ok ⟨a, b⟩ ↔ Settings D file a b := by
  constructor
  · intro h
    unfold startup at h
    cases file with
    | none => cases h; exact .missing
    | some s =>
      simp only at h
      cases hp : parse D.finite s with
      | none => rw [hp] at h; cases h
      | some v =>
        rw [hp] at h
        cases v with
        | null => cases h; exact .null (parse_file.mp hp)
        | obj fs =>
          simp only [index, bind, Except.bind, pure, Except.pure] at h
          cases ha : getString ((fs.lookup (bytes "sim")).getD .null) (bytes "in") with
          | error e => rw [ha] at h; cases h
          | ok a' =>
            cases hb : getString ((fs.lookup (bytes "sim")).getD .null) (bytes "out") with
            | error e => rw [ha, hb] at h; cases h
            | ok b' =>
              rw [ha, hb] at h
              cases h
              have key : ∀ {k : Bytes} {o : Option String}, getString ((fs.lookup (bytes "sim")).getD .null) k = .ok o →
                  StringAt ((Val.obj fs).field (bytes "sim")) k o := by
                intro k o h
                show StringAt (fs.lookup (bytes "sim")) k o
                cases hs : fs.lookup (bytes "sim") with
                | none =>
                  rw [hs] at h
                  rcases stringAt_field.mp h with ⟨-, rfl⟩ | ⟨s, h, -⟩
                  · exact .absent fun w h => by cases h
                  · cases h
                | some w =>
                  rw [hs] at h
                  rcases stringAt_field.mp h with ⟨h2, rfl⟩ | ⟨s, h2, rfl⟩
                  · exact .absent fun w' h' => by cases h'; exact h2
                  · exact .given rfl h2
              exact .object (parse_file.mp hp) (key ha) (key hb)
        | _ => cases h
  · intro h
    cases h with
    | missing => rfl
    | null h => unfold startup; simp only [parse_file.mpr h]; rfl
    | @object s fs _ _ hf ha hb =>
      unfold startup
      simp only [parse_file.mpr hf, index, bind, Except.bind, pure, Except.pure]
      have key : ∀ {k : Bytes} {o : Option String}, StringAt ((Val.obj fs).field (bytes "sim")) k o →
          getString ((fs.lookup (bytes "sim")).getD .null) k = .ok o := by
        intro k o h
        change StringAt (fs.lookup (bytes "sim")) k o at h
        cases h with
        | absent h =>
          cases hs : fs.lookup (bytes "sim") with
          | none => rfl
          | some w => exact stringAt_field.mpr (.inl ⟨h w hs, rfl⟩)
        | given h1 h2 =>
          rw [h1]
          exact stringAt_field.mpr (.inr ⟨_, h2, rfl⟩)
      rw [key ha, key hb]

/-- With any other configuration file the program ends with an exception nobody catches, whatever its arguments. -/
theorem startup_throws {D : Doubles} {file : Option Bytes} (h : ∀ a b, ¬ Settings D file a b) : startup D file = .error .exception := by
  have hg : ∀ v k e, getString v k = .error e → e = .exception := by
    intro v k e h
    unfold getString at h
    split at h <;> first | (cases h; done) | (cases h; rfl)
  have hi : ∀ v k e, index v k = .error e → e = .exception := by
    intro v k e h
    unfold index at h
    split at h <;> first | (cases h; done) | (cases h; rfl)
  cases hs : startup D file with
  | ok c => exact absurd (startup_iff.mp hs) (h _ _)
  | error e =>
    congr 1
    unfold startup at hs
    split at hs
    · cases hs
    · split at hs
      · cases hs; rfl
      · simp only [bind, Except.bind, pure, Except.pure] at hs
        split at hs
        · rename_i h1; cases hs; exact hi _ _ _ h1
        · split at hs
          · rename_i h1; cases hs; exact hi _ _ _ h1
          · split at hs
            · rename_i h1; cases hs; exact hg _ _ _ h1
            · split at hs
              · rename_i h1; cases hs; exact hg _ _ _ h1
              · cases hs

end Verif.Json
