import Verif.Sched.Props
import Mathlib.Tactic.IntervalCases
/-
Properties C27 (ASAP pipeline), C32 (constants), C35 (operand index), C50 (offsets).
-/
namespace Verif.Sched
open Verif.Dfcxx (Fault)

/-! ### C27 -/

/-- Outputs that are also read inside the kernel are not fed through a negative net offset. -/
def ReadOutputsNonneg (P : Prog) : Prop := ∀ o, ReadOutput P o → ∀ x k, Dep P x o k → 0 ≤ k

theorem asap_readOutputsTight {P : Prog} (hP : WF P) {lat : Nat → Int} (hlat : LatOk P lat)
    (h : ReadOutputsNonneg P) : ReadOutputsTight P lat (asap P lat).time := by
  intro o ho x k hdep _
  have hs := asap_meets_dependencies hP lat
  have hk := h o ho x k hdep
  have h0 := hs.nonneg x
  have h1 := hlat.nonneg x
  obtain ⟨hout, n, hn, hon⟩ := ho
  have hosz : o < P.size := by have := hP.refs n hn o hon; omega
  have h2 := hs.dep x o k hosz hdep
  rcases asap_tight hP lat o with h3 | ⟨x', k', _, hd', he⟩
  · omega
  · -- an output has a single source
    obtain ⟨_, s, hs1, hr1⟩ := hdep
    obtain ⟨_, s', hs2, hr2⟩ := hd'
    have : s = s' := by
      cases hd : P.defn o with
      | output src =>
        cases src with
        | none => rw [hd] at hs1; simp [Def.refs] at hs1
        | some u => rw [hd] at hs1 hs2; simp [Def.refs] at hs1 hs2; omega
      | _ => rw [hd] at hout; simp [Def.isOutput] at hout
    subst this
    obtain ⟨rfl, rfl⟩ := Reads.functional hr1 hr2
    exact he

/-- **C27.**  The ASAP pass on a well-formed kernel succeeds, removes all offsets, and in every run of the resulting
netlist (any register contents at start-up, any buffer insertion order) each operation -- in particular each output --
shows element `t` of its stream at cycle `start + latency + t`. -/
theorem asap_pipeline_correct {P : Prog} (hP : WF P) (hsm : Small P) {lat : Nat → Int} (hlat : LatOk P lat)
    (hread : ReadOutputsNonneg P) (bs : List (Chan × Int)) (hbs : bs.Perm (buffersFor P lat (asap P lat).time)) :
    ∃ P', applySchedule P bs = .ok P' ∧ NoOffsets P' ∧ P.size ≤ P'.size ∧
      ∀ (α : Type) (I : Interp α) (σ : Nat → Int → α), HwRun P' I lat σ →
        ∀ v < P.size, (P.defn v).isNode → ∀ t, 0 ≤ t → ∀ a, Sem P I v t a →
          σ v ((asap P lat).time v + lat v + t) = a :=
  schedule_pipeline_correct hP hsm hlat (asap_meets_dependencies hP lat) (asap_readOutputsTight hP hlat hread) bs hbs

/-- The moving sum `y[t] = x[t-1] + x[t] + x[t+1]` as a kernel: input, two offsets, two additions, output. -/
def movingSum : Prog where
  size := 6
  defn := fun | 0 => .stream | 1 => .offset 0 (-1) | 2 => .offset 0 1 | 3 => .node [1, 0] | 4 => .node [3, 2]
              | 5 => .output (some 4) | _ => .erased

theorem movingSum_wf : WF movingSum := by
  refine ⟨?_, ?_, ?_⟩
  · intro i hi
    have : i < 6 := hi
    interval_cases i <;> simp [movingSum, Def.refs]
  · intro i hi
    have : i < 6 := hi
    interval_cases i <;> simp [movingSum]
  · intro i hi s k h
    have : i < 6 := hi
    interval_cases i <;> simp [movingSum] at h <;> omega

theorem movingSum_small : Small movingSum := by
  refine .of_length fun i hi args h => ?_
  have : i < 6 := hi
  interval_cases i <;> simp [movingSum] at h <;> subst h <;> simp

def movingSumLat : Nat → Int := fun v => if v = 3 ∨ v = 4 then 2 else 0

theorem movingSum_latOk : LatOk movingSum movingSumLat := by
  refine ⟨fun n => by unfold movingSumLat; split <;> omega, ?_⟩
  intro n h
  unfold movingSumLat
  split
  · rename_i h'; rcases h' with rfl | rfl
    · exact absurd rfl (h [1, 0])
    · exact absurd rfl (h [3, 2])
  · rfl

theorem movingSum_reads : ReadOutputsNonneg movingSum := by
  intro o ho
  obtain ⟨h1, n, hn, h2⟩ := ho
  have : n < 6 := hn
  exfalso
  interval_cases n <;> simp [movingSum, Def.refs] at h2
  · subst h2; simp [movingSum, Def.isOutput] at h1
  · subst h2; simp [movingSum, Def.isOutput] at h1
  · rcases h2 with rfl | rfl <;> simp [movingSum, Def.isOutput] at h1
  · rcases h2 with rfl | rfl <;> simp [movingSum, Def.isOutput] at h1
  · subst h2; simp [movingSum, Def.isOutput] at h1

/-- Non-vacuity of C27: the hypotheses hold for the moving sum with 2-cycle adders, its output starts at cycle 4, and
element 1 is `x₀ + x₁ + x₂`. -/
example : WF movingSum ∧ Small movingSum ∧ LatOk movingSum movingSumLat ∧ ReadOutputsNonneg movingSum ∧
    (asap movingSum movingSumLat).time 5 = 4 ∧
    (buffersFor movingSum movingSumLat (asap movingSum movingSumLat).time).length = 2 ∧
    ∀ x : Int → Int, Sem movingSum ⟨fun _ l => l.sum, fun _ t => x t, fun _ => 0⟩ 5 1 (x 0 + x 1 + x 2) := by
  refine ⟨movingSum_wf, movingSum_small, movingSum_latOk, movingSum_reads, by decide, by decide, ?_⟩
  intro x
  let I : Interp Int := ⟨fun _ l => l.sum, fun _ t => x t, fun _ => 0⟩
  have h0 : ∀ t, 0 ≤ t → Sem movingSum I 0 t (x t) := fun t ht => Sem.stream (I := I) (v := 0) rfl ht
  have h1 : Sem movingSum I 1 1 (x 0) := .offset (s := 0) (k := -1) rfl (h0 0 (by omega))
  have h2 : Sem movingSum I 2 1 (x 2) := .offset (s := 0) (k := 1) rfl (h0 2 (by omega))
  have h3 : Sem movingSum I 3 1 (x 0 + x 1) := by
    have := Sem.strict (P := movingSum) (I := I) (v := 3) (args := [1, 0]) (t := 1)
      (fun s => if s = 1 then x 0 else x 1) rfl (by omega)
      (by intro s hs; simp at hs; rcases hs with rfl | rfl
          · exact h1
          · exact h0 1 (by omega))
    simpa [I] using this
  have h4 : Sem movingSum I 4 1 (x 0 + x 1 + x 2) := by
    have := Sem.strict (P := movingSum) (I := I) (v := 4) (args := [3, 2]) (t := 1)
      (fun s => if s = 3 then x 0 + x 1 else x 2) rfl (by omega)
      (by intro s hs; simp at hs; rcases hs with rfl | rfl
          · exact h3
          · exact h2)
    simpa [I] using this
  exact .output (s := 4) rfl h4

/-- A kernel whose output is read back: `o = offset(x, -1)` is an output and also the operand of an operation. -/
def readBack : Prog where
  size := 5
  defn := fun | 0 => .stream | 1 => .offset 0 (-1) | 2 => .output (some 1) | 3 => .node [2] | 4 => .output (some 3)
              | _ => .erased

/-- **C27, boundary of the claim.**  When an output fed through a negative offset is read inside the kernel the ASAP
pass delays the value twice: the operation shows element `t - 1` where element `t` is due. -/
theorem asap_read_output_delayed_twice :
    WF readBack ∧ Small readBack ∧ LatOk readBack (fun _ => 0) ∧
    ∃ P', applySchedule readBack (buffersFor readBack (fun _ => 0) (asap readBack (fun _ => 0)).time) = .ok P' ∧
      ∀ (x : Int → Int) (σ : Nat → Int → Int),
        HwRun P' ⟨fun _ l => l.sum, fun _ t => x t, fun _ => 0⟩ (fun _ => 0) σ → ∀ t, 2 ≤ t →
        σ 3 ((asap readBack (fun _ => 0)).time 3 + 0 + t) = x (t - 2) ∧
        Sem readBack ⟨fun _ l => l.sum, fun _ t => x t, fun _ => 0⟩ 3 t (x (t - 1)) := by
  refine ⟨⟨?_, ?_, ?_⟩, ?_, ⟨by simp, by simp⟩, ?_⟩
  · intro i hi
    have : i < 5 := hi
    interval_cases i <;> simp [readBack, Def.refs]
  · intro i hi
    have : i < 5 := hi
    interval_cases i <;> simp [readBack]
  · intro i hi s k h
    have : i < 5 := hi
    interval_cases i <;> simp [readBack] at h <;> omega
  · refine .of_length fun i hi args h => ?_
    have : i < 5 := hi
    interval_cases i <;> simp [readBack] at h <;> subst h <;> simp
  · have hb : buffersFor readBack (fun _ => 0) (asap readBack (fun _ => 0)).time =
        [(⟨0, 2, -1, -1⟩, 1), (⟨0, 3, 0, -1⟩, 1)] := by decide
    have ht : (asap readBack (fun _ => 0)).time 3 = 0 := by decide
    rw [hb, ht]
    refine ⟨_, rfl, ?_⟩
    intro x σ hrun t ht
    constructor
    · have h0 := hrun 0 (by decide)
      have h2 := hrun 2 (by decide)
      have h3 := hrun 3 (by decide)
      have h5 := hrun 5 (by decide)
      have h6 := hrun 6 (by decide)
      change ∀ c, 0 ≤ c → σ 0 c = x c at h0
      change ∀ c, 0 ≤ c → σ 2 c = σ 5 c at h2
      change ∀ c, (0 : Int) ≤ c → σ 3 c = ([σ 6 (c - 0)] : List Int).sum at h3
      change ∀ c, (1 : Int) ≤ c → σ 5 c = σ 0 (c - 1) at h5
      change ∀ c, (1 : Int) ≤ c → σ 6 c = σ 2 (c - 1) at h6
      rw [h3 _ (by omega)]
      simp only [List.sum_cons, List.sum_nil]
      rw [h6 _ (by omega), h2 _ (by omega), h5 _ (by omega), h0 _ (by omega)]
      rw [show (0 : Int) + 0 + t - 0 - 1 - 1 = t - 2 by omega]; omega
    · let I : Interp Int := ⟨fun _ l => l.sum, fun _ t => x t, fun _ => 0⟩
      have h0 : Sem readBack I 0 (t + -1) (x (t + -1)) := Sem.stream (I := I) (v := 0) rfl (by omega)
      have h1 : Sem readBack I 1 t (x (t - 1)) := .offset (s := 0) (k := -1) rfl h0
      have h2 : Sem readBack I 2 t (x (t - 1)) := .output (s := 1) rfl h1
      have := Sem.strict (P := readBack) (I := I) (v := 3) (args := [2]) (t := t) (fun _ => x (t - 1)) rfl (by omega)
        (by intro s hs; simp at hs; subst hs; exact h2)
      simpa [I] using this

/-! ### C32 -/

/-- **C32.**  For any schedule -- whatever start times it gives to constants and scalar inputs -- no requested buffer
sits behind a constant or scalar input, and the pipeline without those buffers is still correct. -/
theorem constants_need_no_buffers {P : Prog} (hP : WF P) (hsm : Small P) {lat T : Nat → Int} (hlat : LatOk P lat)
    (hT : Schedule P lat T) (hread : ReadOutputsTight P lat T) :
    (∀ c b, (c, b) ∈ buffersFor P lat T → P.defn c.src ≠ .const ∧ P.defn c.src ≠ .scalar) ∧
    ∃ P', applySchedule P (buffersFor P lat T) = .ok P' ∧
      ∀ (α : Type) (I : Interp α) (σ : Nat → Int → α), HwRun P' I lat σ →
        ∀ v < P.size, (P.defn v).isNode → ∀ t, 0 ≤ t → ∀ a, Sem P I v t a → σ v (T v + lat v + t) = a := by
  refine ⟨?_, ?_⟩
  · intro c b h
    obtain ⟨_, _, _, h4⟩ := buffersFor_mem.1 h
    simp only at h4
    constructor <;> intro h <;> rw [h] at h4 <;> simp [Def.isConstantInput] at h4
  · obtain ⟨P', h1, _, _, h4⟩ := schedule_pipeline_correct hP hsm hlat hT hread _ (List.Perm.refl _)
    exact ⟨P', h1, h4⟩

/-- A buffer on a constant would only delay it: from cycle `n` on the buffered and the unbuffered value agree. -/
theorem constant_buffer_redundant {α : Type} {P : Prog} {I : Interp α} {lat : Nat → Int} {σ : Nat → Int → α}
    (hrun : HwRun P I lat σ) {s w : Nat} {n : Int} (hs : s < P.size) (hw : w < P.size)
    (hc : (P.defn s).isConstantInput = true) (hl : P.defn w = .latency s n) (hn : 0 ≤ n) :
    ∀ c, n ≤ c → σ w c = σ s c := by
  intro c hc'
  have h1 := hrun s hs
  have h2 := hrun w hw
  rw [hl] at h2; simp only at h2
  have h3 : ∀ c, 0 ≤ c → σ s c = I.cst s := by
    cases hd : P.defn s with
    | const => rw [hd] at h1; exact h1
    | scalar => rw [hd] at h1; exact h1
    | _ => rw [hd] at hc; simp [Def.isConstantInput] at hc
  rw [h2 c hc', h3 _ (by omega), h3 _ (by omega)]

/-- Non-vacuity of C32: a 2-cycle operation on a stream and then an addition of a constant; only the stream side of
the schedule matters and no buffer is placed behind the constant. -/
example : ∃ P : Prog, ∃ lat : Nat → Int, WF P ∧ Small P ∧ LatOk P lat ∧ ReadOutputsTight P lat (asap P lat).time ∧
    P.defn 1 = .const ∧ Dep P 1 3 0 ∧ (asap P lat).time 3 - ((asap P lat).time 1 + lat 1 + 0) = 2 := by
  let P : Prog := .mk 5 fun | 0 => .stream | 1 => .const | 2 => .node [0] | 3 => .node [2, 1] | 4 => .output (some 3) | _ => .erased
  have hP : WF P := by
    refine ⟨?_, ?_, ?_⟩
    · intro i hi
      have : i < 5 := hi
      interval_cases i <;> simp [P, Def.refs]
    · intro i hi
      have : i < 5 := hi
      interval_cases i <;> simp [P]
    · intro i hi s k h
      have : i < 5 := hi
      interval_cases i <;> simp [P] at h
  have hl : LatOk P (fun v => if v = 2 then 2 else 0) := by
    refine ⟨fun n => by split <;> omega, ?_⟩
    intro n h; split
    · rename_i h'; subst h'; exact absurd rfl (h [0])
    · rfl
  refine ⟨P, fun v => if v = 2 then 2 else 0, hP, ?_, hl, asap_readOutputsTight hP hl ?_, rfl,
    ⟨rfl, 1, by simp [P, Def.refs], .here rfl (by simp [P])⟩, by decide⟩
  · refine .of_length fun i hi args h => ?_
    have : i < 5 := hi
    interval_cases i <;> simp [P] at h <;> subst h <;> simp
  · intro o ho
    obtain ⟨h1, n, hn, h2⟩ := ho
    have : n < 5 := hn
    exfalso
    interval_cases n <;> simp [P, Def.refs] at h2
    · subst h2; simp [P, Def.isOutput] at h1
    · rcases h2 with rfl | rfl <;> simp [P, Def.isOutput] at h1
    · subst h2; simp [P, Def.isOutput] at h1

/-! ### C35 -/

/-- **C35.**  Buffering operand `j` of an operation (`j < 128`) puts a delay of the requested length between the old
operand and the operation, at position `j` and nowhere else; every other operation is untouched. -/
theorem insertBuffer_replaces_exactly {P : Prog} {n : Nat} {args : List Nat} (hd : P.defn n = .node args)
    (hn : n < P.size) {j : Nat} (hj : j < args.length) (hj128 : j < 128) (x : Nat) (k : Int) {b : Int} (hb : 0 < b) :
    ∃ P', insertBuffer P ⟨x, n, wrap8 j, k⟩ b = .ok P' ∧ P'.size = P.size + 1 ∧
      P'.defn P.size = .latency args[j] b ∧
      (∃ args', P'.defn n = .node args' ∧ args'.length = args.length ∧ args'[j]? = some P.size ∧
        ∀ i, i ≠ j → args'[i]? = args[i]?) ∧
      ∀ m, m ≠ n → m ≠ P.size → P'.defn m = P.defn m := by
  refine ⟨⟨P.size + 1, ((P.set n (.node (args.set j P.size))).set P.size (.latency args[j] b)).defn⟩, ?_, rfl, ?_,
    ⟨args.set j P.size, ?_, by simp, by simp [hj], ?_⟩, ?_⟩
  · rw [wrap8_small hj128]
    simp only [insertBuffer, if_neg (by omega : ¬ b ≤ 0), Int.natCast_nonneg, if_true, hd, Int.toNat_natCast,
      List.getElem?_eq_getElem hj]
  · simp [Prog.set]
  · have : n ≠ P.size := by omega
    simp [Prog.set, this]
  · intro i hi; rw [List.getElem?_set_ne (by omega)]
  · intro m h1 h2; simp [Prog.set, h1, h2]

/-- C35 for outputs: the buffer goes between the connected source and the output. -/
theorem insertBuffer_output {P : Prog} {n s : Nat} (hd : P.defn n = .output (some s)) (hn : n < P.size) (x : Nat) (k : Int)
    {b : Int} (hb : 0 < b) :
    ∃ P', insertBuffer P ⟨x, n, -1, k⟩ b = .ok P' ∧ P'.size = P.size + 1 ∧ P'.defn P.size = .latency s b ∧
      P'.defn n = .output (some P.size) ∧ ∀ m, m ≠ n → m ≠ P.size → P'.defn m = P.defn m := by
  refine ⟨⟨P.size + 1, ((P.set n (.output (some P.size))).set P.size (.latency s b)).defn⟩, ?_, rfl, ?_, ?_, ?_⟩
  · simp only [insertBuffer, if_neg (by omega : ¬ b ≤ 0), hd]; rfl
  · simp [Prog.set]
  · have : n ≠ P.size := by omega
    simp [Prog.set, this]
  · intro m h1 h2; simp [Prog.set, h1, h2]

theorem wrap8_mid {j : Nat} (h1 : 128 ≤ j) (h2 : j < 256) : wrap8 j = (j : Int) - 256 := by
  unfold wrap8
  rw [BitVec.toInt_eq_toNat_bmod, BitVec.toNat_ofNat, Int.bmod_def]
  have : (((j % 2 ^ 8 : Nat) : Int)) = j := by omega
  rw [this]
  split <;> omega

theorem wrap8_high {j : Nat} (h1 : 256 ≤ j) (h2 : j < 384) : wrap8 j = (j : Int) - 256 := by
  unfold wrap8
  rw [BitVec.toInt_eq_toNat_bmod, BitVec.toNat_ofNat, Int.bmod_def]
  have : (((j % 2 ^ 8 : Nat) : Int)) = (j : Int) - 256 := by omega
  rw [this]
  split <;> omega

/-- **C35 fails beyond 128 operands** (finding): buffering operand 128..255 is a failure (the index wraps to a result
index of a non-output), buffering operand 256..383 silently delays operand `j - 256` instead. -/
theorem insertBuffer_wide_operand {P : Prog} {n : Nat} {args : List Nat} (hd : P.defn n = .node args) (hn : n < P.size)
    {j : Nat} (hj : j < args.length) (x : Nat) (k : Int) {b : Int} (hb : 0 < b) :
    (128 ≤ j → j < 256 → ∃ f, insertBuffer P ⟨x, n, wrap8 j, k⟩ b = .error f) ∧
    (256 ≤ j → j < 384 → ∃ P', insertBuffer P ⟨x, n, wrap8 j, k⟩ b = .ok P' ∧
      ∃ args', P'.defn n = .node args' ∧ args'[j]? = args[j]? ∧ args'[j - 256]? = some P.size) := by
  constructor
  · intro h1 h2
    rw [wrap8_mid h1 h2]
    unfold insertBuffer
    rw [if_neg (by omega : ¬ b ≤ 0)]
    simp only
    rw [if_neg (by omega : ¬ (0 : Int) ≤ (j : Int) - 256)]
    split
    · exact ⟨_, rfl⟩
    · rw [hd]; exact ⟨_, rfl⟩
  · intro h1 h2
    rw [wrap8_high h1 h2]
    have e : ((j : Int) - 256).toNat = j - 256 := by omega
    refine ⟨_, by
      simp only [insertBuffer]
      rw [if_neg (by omega : ¬ b ≤ 0), if_pos (by omega : (0 : Int) ≤ (j : Int) - 256)]
      simp only [hd, e, List.getElem?_eq_getElem (show j - 256 < args.length by omega)]
      rfl, args.set (j - 256) P.size, ?_, ?_, ?_⟩
    · have : n ≠ P.size := by omega
      simp [Prog.set, this]
    · rw [List.getElem?_set_ne (by omega)]
    · rw [List.getElem?_set_self (by omega)]

/-! ### C50 -/

/-- `OffsetChain P v ks x`: value `v` is obtained from `x` by applying the offsets `ks` one after another. -/
inductive OffsetChain (P : Prog) : Nat → List Int → Nat → Prop
  | nil (x : Nat) : OffsetChain P x [] x
  | cons {v s x k ks} (h : P.defn v = .offset s k) (hc : OffsetChain P s ks x) : OffsetChain P v (k :: ks) x

/-- **C50.**  A chain of stream offsets denotes one offset by the sum, and the scheduler accounts for exactly that
sum when it looks up the value's producer. -/
theorem offset_chain_sum {P : Prog} (hP : WF P) {v x : Nat} {ks : List Int} (hc : OffsetChain P v ks x)
    (hv : v < P.size) (hx : (P.defn x).isNode) (hno : ∀ s, P.defn x ≠ .output (some s)) :
    nearestOf P v = (x, ks.sum) ∧
    ∀ (α : Type) (I : Interp α) t a, Sem P I v t a ↔ Sem P I x (t + ks.sum) a := by
  have hr : Reads P v x ks.sum := by
    clear hv
    induction hc with
    | nil x => exact .here hx hno
    | cons h _ ih => rw [List.sum_cons]; exact .off h (ih hx hno)
  refine ⟨?_, ?_⟩
  · obtain ⟨h1, h2⟩ := Reads.functional (nearestOf_reads hP hv) hr
    exact Prod.ext h1 h2
  · intro α I t a
    refine ⟨sem_reads hr, ?_⟩
    clear hr hv
    induction hc generalizing t with
    | nil x => intro h; simpa using h
    | cons h _ ih =>
      intro hs
      rw [List.sum_cons, ← Int.add_assoc] at hs
      exact .offset h (ih hx hno _ hs)

/-- Non-vacuity: three chained offsets. -/
example : ∃ P, WF P ∧ OffsetChain P 3 [2, -5, 1] 0 ∧ nearestOf P 3 = (0, -2) := by
  refine ⟨⟨4, fun | 0 => .stream | 1 => .offset 0 1 | 2 => .offset 1 (-5) | 3 => .offset 2 2 | _ => .erased⟩, ?_,
    .cons rfl (.cons rfl (.cons rfl (.nil 0))), by decide⟩
  refine ⟨?_, ?_, ?_⟩
  · intro i hi
    simp only at hi
    interval_cases i <;> simp [Def.refs]
  · intro i hi
    simp only at hi
    interval_cases i <;> simp
  · intro i hi s k h
    simp only at hi
    interval_cases i <;> simp at h <;> omega

/-- **C50, boundary** (finding): the offset is an unbounded integer attribute but is truncated to 32 bits when it is
read: an offset by `2^32` schedules like no offset at all. -/
theorem offset_truncated (P : Prog) (v x : Nat) (h : P.defn v = .offset x (2^32)) (hx : P.defn x = .stream) (hv : 0 < v) :
    nearestOf P v = (x, 0) := by
  obtain ⟨v', rfl⟩ : ∃ v', v = v' + 1 := ⟨v - 1, by omega⟩
  unfold nearestOf
  rw [nearest, h]; simp only
  rw [nearest, hx]
  have : wrap32 (2^32) = 0 := by decide
  rw [this]; rfl

end Verif.Sched
