import Verif.Sched.Range
/-
C82: a kernel within the bound, and kernels beyond it whose schedules overflow.
-/
namespace Verif.Sched
open Verif.Dfcxx (Fault)

/-- `x.offset(-1) + x.offset(1)`, an output: a kernel within the bound, with additions of two stages. -/
def smallP : Prog := ⟨5, fun v => match v with
  | 0 => .stream
  | 1 => .offset 0 (-1)
  | 2 => .offset 0 1
  | 3 => .node [1, 2]
  | 4 => .output (some 3)
  | _ => .erased⟩

/-- Additions of two stages. -/
def smallLat (v : Nat) : Int := if v = 3 then 2 else 0

theorem smallP_wf : WF smallP := by
  refine ⟨?_, ?_, ?_⟩
  · decide
  · intro i hi
    match i, hi with
    | 0, _ | 1, _ | 2, _ | 3, _ | 4, _ => exact ⟨(fun _ _ h => by cases h), (fun h => by cases h)⟩
    | i + 5, hi => exact absurd hi (by simp [smallP])
  · intro i hi s k h
    match i, hi, h with
    | 1, _, h => cases h; decide
    | 2, _, h => cases h; decide
    | i + 5, hi, _ => exact absurd hi (by simp [smallP])

theorem smallP_modest : Modest smallP smallLat 2 := by
  refine ⟨fun v => ?_, by decide⟩
  unfold smallLat
  split <;> omega

/-- The output of the example starts three cycles after the inputs (one for the offset, two for the addition); nothing overflows. -/
example : (asap smallP smallLat).time 4 = 3 ∧ asap32 smallP smallLat = .ok (asap smallP smallLat) :=
  ⟨by decide, (asap_fits smallP_wf smallP_modest).1⟩

/-- Looking 2^31 - 1 cycles ahead, and an operation of two stages in front of it: the arrival time overflows. -/
def farP : Prog := ⟨4, fun v => match v with
  | 0 => .stream
  | 1 => .node [0]
  | 2 => .offset 1 (2 ^ 31 - 1)
  | 3 => .output (some 2)
  | _ => .erased⟩

def farLat (v : Nat) : Int := if v = 1 then 2 else 0

/-- **C82, the limit.**  Beyond the bound the start times overflow, although every offset fits in `int32_t`, ... -/
theorem asap_overflows : WF farP ∧ asap32 farP farLat = .error .ub := by
  refine ⟨⟨by decide, ?_, ?_⟩, by rfl⟩
  · intro i hi
    match i, hi with
    | 0, _ | 1, _ | 2, _ | 3, _ => exact ⟨(fun _ _ h => by cases h), (fun h => by cases h)⟩
    | i + 4, hi => exact absurd hi (by simp [farP])
  · intro i hi s k h
    match i, hi, h with
    | 2, _, h => cases h; decide
    | i + 4, hi, _ => exact absurd hi (by simp [farP])

/-- ... and so does the sum of two successive offsets of 2^30. -/
theorem offsets_overflow : nearest32 ⟨3, fun v => match v with
    | 0 => .stream
    | 1 => .offset 0 (2 ^ 30)
    | 2 => .offset 1 (2 ^ 30)
    | _ => .erased⟩ 3 2 0 = .error .ub := by rfl

end Verif.Sched
