import Verif.Dfcxx.Sim
/-
Model of the simulator's input reader, driver loop and value-change dump:
/repo/src/model/dfcxx/lib/dfcxx/simulator.cpp lines 23-53 and 240-356, simulator.h lines 30-37.
-/
namespace Verif.Dfcxx

abbrev Line := List Char

/-- The lines `std::getline` delivers for a file's characters: split at `'\n'`; what follows the last newline is
a line only when non-empty. -/
def getlines : List Char → List Line
  | [] => []
  | c :: cs =>
    if c = '\n' then [] :: getlines cs
    else match getlines cs with
      | [] => [[c]]
      | l :: ls => (c :: l) :: ls

/-- `isspace` in the "C" locale. -/
def isSpaceC (c : Char) : Bool := c = ' ' || c = '\t' || c = '\n' || c = '\x0b' || c = '\x0c' || c = '\r'

/-- Value of a hexadecimal digit as `strtoul` accepts it. -/
def hexVal (c : Char) : Option Nat :=
  if '0' ≤ c ∧ c ≤ '9' then some (c.toNat - 48)
  else if 'a' ≤ c ∧ c ≤ 'f' then some (c.toNat - 87)
  else if 'A' ≤ c ∧ c ≤ 'F' then some (c.toNat - 55)
  else none

/-- The longest prefix of hexadecimal digits, as digit values. -/
def hexRun : List Char → List Nat
  | [] => []
  | c :: cs => match hexVal c with
    | some d => d :: hexRun cs
    | none => []

/-- `strtoul` drops the prefix `0x` in base 16 when a digit follows it. -/
def dropHexPrefix : List Char → List Char
  | '0' :: x :: d :: r =>
    if (x = 'x' ∨ x = 'X') ∧ (hexVal d).isSome then d :: r else '0' :: x :: d :: r
  | s => s

/-- The optional sign `strtoul` accepts. -/
def dropSign : List Char → Bool × List Char
  | '-' :: r => (true, r)
  | '+' :: r => (false, r)
  | s => (false, s)

/-- `std::stoul(s, 0, 16)` (simulator.cpp:42): C library `strtoul`; no digits or a value of 2^64 or more throws. -/
def stoul16 (s : List Char) : Except Fault Word :=
  let p := dropSign (s.dropWhile isSpaceC)
  let ds := hexRun (dropHexPrefix p.2)
  let n := ds.foldl (fun a d => 16 * a + d) 0
  if ds = [] then .error .throw
  else if 2^64 ≤ n then .error .throw
  else .ok (if p.1 then - BitVec.ofNat 64 n else BitVec.ofNat 64 n)

/-- `SIM_DATA_BUF_SIZE` (simulator.h:33). -/
def bufSize : Nat := 200

/-- `IOVars` (simulator.h:35): `std::map<std::string, std::array<SimValue, 200>>`; slots of a new entry are 0. -/
abbrev InData := String → Option (Nat → Word)

/-- `inData[name][ind] = v` (simulator.cpp:41-42). -/
def InData.set (d : InData) (nm : String) (ind : Nat) (v : Word) : InData := fun m =>
  if m = nm then some (fun j => if j = ind then v else ((d nm).getD (fun _ => 0)) j) else d m

/-- `inData.at(name)[ind]` (simulator.cpp:51): `at` throws on an unknown name, `std::array::operator[]` is
unchecked. -/
def tickIn (d : InData) (ind : Nat) : TickIn := fun nm =>
  match d nm with
  | none => .error .throw
  | some a => if ind < bufSize then .ok (a ind) else .error .ub

/-- Position of the separator (simulator.cpp:34-39): the first space, neither first nor last in the line. -/
def splitLine (l : Line) : Option (String × List Char) :=
  let nm := l.takeWhile (· ≠ ' ')
  match l.dropWhile (· ≠ ' ') with
  | _ :: txt => if nm = [] ∨ txt = [] then none else some (String.ofList nm, txt)
  | [] => none

/-- The loop of `readInput` (simulator.cpp:28-46); the line is fetched before `ind` is tested.  Result: returned
count, data, unread lines. -/
def readLoop : List Line → (ind : Nat) → (atLeastOne : Bool) → InData → Except Fault (Nat × InData × List Line)
  | [], ind, al, d => .ok (if al then ind + 1 else 0, d, [])
  | line :: rest, ind, al, d =>
    if ind < bufSize then
      if line = [] then readLoop rest (ind + 1) al d
      else match splitLine line with
        | none => .ok (0, d, rest)
        | some (nm, txt) =>
          match stoul16 txt with
          | .error f => .error f
          | .ok v => readLoop rest ind true (d.set nm ind v)
    else .ok (if al then ind + 1 else 0, d, rest)

/-- `readInput` (simulator.cpp:23-46). -/
def readInput (lines : List Line) (d : InData) : Except Fault (Nat × InData × List Line) :=
  readLoop lines 0 false d

/-- `valueToBinary` (simulator.cpp:240-250); a shift by 64 or more is undefined. -/
def valueToBinary (v : Word) (width : Nat) : Except Fault (List Char) :=
  (List.range width).mapM fun bitId =>
    let sh := width - 1 - bitId
    if sh < 64 then .ok (Char.ofNat (((v >>> sh) &&& 1).toNat + 48)) else .error .ub

/-- One tick section of the dump. -/
structure TickRec where
  tick   : Nat
  values : List (String × List Char)
  deriving DecidableEq, Repr

/-- The data handed to the template: declared variables with widths, the tick sections, the final tick. -/
structure Vcd where
  vars  : List (String × Nat)
  ticks : List TickRec
  final : Nat
  deriving DecidableEq, Repr

abbrev IdMap := List (Nat × String)

/-- The naming loop of `genHeader` (simulator.cpp:286-300), over the nodes in the map's iteration order; result:
id map and new counter.  (Every node occurs once in the map, so the `idMap.find` branch is never taken.) -/
def genIds (V : Nat → NodeV) : List Nat → Nat → IdMap
  | [], _ => []
  | n :: rest, counter =>
    if (V n).name ≠ "" then (n, (V n).name) :: genIds V rest counter
    else (n, "node" ++ toString counter) :: genIds V rest (counter + 1)

/-- `VARS` of the header (simulator.cpp:302-315). -/
def headerVars (V : Nat → NodeV) (ids : IdMap) : List (String × Nat) :=
  ids.map fun p => (p.2, (V p.1).ty.totalBits)

/-- One `VALUES` section of `writeOutput` (simulator.cpp:260-267); `idMap.at` throws on a missing node. -/
def dumpNode (V : Nat → NodeV) (ids : IdMap) (vals : Vals) (n : Nat) : Except Fault (String × List Char) :=
  match valueToBinary (rd vals n) (V n).ty.totalBits with
  | .error f => .error f
  | .ok txt => match ids.lookup n with
    | some s => .ok (s, txt)
    | none => .error .throw

/-- `writeOutput` (simulator.cpp:252-269): one `VALUES` section per entry of the table. -/
def writeOutput (V : Nat → NodeV) (ids : IdMap) (vals : Vals) (it : List Nat) (tick : Nat) : Except Fault TickRec :=
  match it.mapM (dumpNode V ids vals) with
  | .error f => .error f
  | .ok vs => .ok ⟨tick, vs⟩

/-- State of `simulate` carried between ticks: value table, id map (`none` until the header is generated). -/
structure DrvState where
  vals : Vals
  ids  : Option IdMap

/-- The inner loop of `simulate` (simulator.cpp:330-343) over the given iteration numbers. -/
def drvBatch (F : FloatOps) (V : Nat → NodeV) (order it : List Nat) (d : InData) (startInd : Nat) :
    List Nat → DrvState → Except Fault (Option (DrvState × List TickRec))
  | [], st => .ok (some (st, []))
  | iter :: rest, st =>
    match runSim F V order st.vals (tickIn d iter) with
    | .fault f => .error f
    | .failed => .ok none
    | .done vals' =>
      let ids := st.ids.getD (genIds V it 0)
      match writeOutput V ids vals' it (startInd + iter) with
      | .error f => .error f
      | .ok rec => match drvBatch F V order it d startInd rest ⟨vals', some ids⟩ with
        | .error f => .error f
        | .ok none => .ok none
        | .ok (some (st', recs)) => .ok (some (st', rec :: recs))

theorem readLoop_rest_le : ∀ (lines : List Line) (ind : Nat) (al : Bool) (d : InData) (c : Nat) (d' : InData)
    (rest : List Line), readLoop lines ind al d = .ok (c, d', rest) → rest.length ≤ lines.length ∧
      (c ≠ 0 → al = false → rest.length < lines.length) := by
  intro lines
  induction lines with
  | nil =>
    intro ind al d c d' rest h
    simp only [readLoop, Except.ok.injEq, Prod.mk.injEq] at h
    obtain ⟨h1, _, rfl⟩ := h
    refine ⟨by simp, ?_⟩
    intro hc hal; subst hal; simp at h1; exact absurd h1.symm hc
  | cons l ls ih =>
    intro ind al d c d' rest h
    simp only [readLoop] at h
    split at h
    · split at h
      · have := ih _ _ _ _ _ _ h
        exact ⟨by simp; omega, fun _ _ => by simp; omega⟩
      · split at h
        · simp only [Except.ok.injEq, Prod.mk.injEq] at h
          obtain ⟨_, _, rfl⟩ := h
          exact ⟨by simp, fun _ _ => by simp⟩
        · split at h
          · cases h
          · have := ih _ _ _ _ _ _ h
            exact ⟨by simp; omega, fun _ _ => by simp; omega⟩
    · simp only [Except.ok.injEq, Prod.mk.injEq] at h
      obtain ⟨_, _, rfl⟩ := h
      exact ⟨by simp, fun _ _ => by simp⟩

/-- The outer loop of `simulate` (simulator.cpp:329-345). `it` is the iteration order of the value table. -/
def drvLoop (F : FloatOps) (V : Nat → NodeV) (order it : List Nat) (lines : List Line) (d : InData)
    (startInd : Nat) (st : DrvState) : Except Fault (Option (DrvState × List TickRec × Nat)) :=
  match hr : readInput lines d with
  | .error f => .error f
  | .ok (count, d', rest) =>
    if hc : count = 0 then .ok (some (st, [], startInd))
    else match drvBatch F V order it d' startInd (List.range count) st with
      | .error f => .error f
      | .ok none => .ok none
      | .ok (some (st', recs)) =>
        match drvLoop F V order it rest d' (startInd + count) st' with
        | .error f => .error f
        | .ok none => .ok none
        | .ok (some (st'', recs', fin)) => .ok (some (st'', recs ++ recs', fin))
  termination_by lines.length
  decreasing_by exact (readLoop_rest_le _ _ _ _ _ _ _ hr).2 hc rfl

/-- `simulate` (simulator.cpp:318-356) on the lines of the input file: `none` = returns false. -/
def simulateLines (F : FloatOps) (V : Nat → NodeV) (order it : List Nat) (lines : List Line) :
    Except Fault (Option Vcd) :=
  match drvLoop F V order it lines (fun _ => none) 1 ⟨fun _ => none, none⟩ with
  | .error f => .error f
  | .ok none => .ok none
  | .ok (some (st, recs, fin)) => .ok (some ⟨headerVars V (st.ids.getD []), recs, fin⟩)

/-- `simulate` on the characters of the input file. -/
def simulate (F : FloatOps) (V : Nat → NodeV) (order it : List Nat) (content : List Char) :
    Except Fault (Option Vcd) :=
  simulateLines F V order it (getlines content)

end Verif.Dfcxx
