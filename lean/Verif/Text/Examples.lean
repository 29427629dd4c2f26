import Verif.Text.Api
import Verif.Text.Sound
/-
C67, concrete cases: the model prints the texts of /repo/test/examples for the kernels of /repo/examples, and reads them.
-/
namespace Verif.Text
open Verif.Dfcxx Verif.Flow

open Lean in
/-- The characters of a literal. -/
macro "chars!" s:str : term => do
  let cs : Array (TSyntax `term) := (s.getString.toList.map fun c => (⟨Syntax.mkCharLit c⟩ : TSyntax `term)).toArray
  `([$cs,*])

def u32t : DFType := .fixed false 32 0

/-- /repo/examples/movingsum/movingsum.h:22-36. -/
def movingSum : List Cmd :=
  [.input false "x" u32t, .offset 0 (-1), .offset 0 1, .bin .ADD 1 0, .bin .ADD 3 2, .output false "out" u32t, .connect 5 4]

/-- /repo/examples/addconst/addconst.h:22-37. -/
def addConst : List Cmd :=
  [.input false "x" u32t, .const u32t 5, .bin .ADD 0 0, .bin .ADD 2 1, .bin .ADD 3 0, .output false "out" u32t, .connect 5 4]

/-- /repo/test/examples/movingsum/movingsum.mlir. -/
def movingSumText : List Char :=
  chars! "module {\n" ++
  chars! "  dfcir.kernel \"MovingSum\" {\n" ++
  chars! "    %0 = dfcir.input<!dfcir.fixed<false, 32, 0>> (\"x\")\n" ++
  chars! "    %1 = dfcir.offset(%0, 1 : i64) : !dfcir.stream<!dfcir.fixed<false, 32, 0>>\n" ++
  chars! "    %2 = dfcir.offset(%0, -1 : i64) : !dfcir.stream<!dfcir.fixed<false, 32, 0>>\n" ++
  chars! "    %3 = dfcir.add[?] (%2 : !dfcir.stream<!dfcir.fixed<false, 32, 0>>, %0 : !dfcir.stream<!dfcir.fixed<false, 32, 0>>) : !dfcir.stream<!dfcir.fixed<false, 32, 0>> {latency = -1 : i32}\n" ++
  chars! "    %4 = dfcir.add[?] (%3 : !dfcir.stream<!dfcir.fixed<false, 32, 0>>, %1 : !dfcir.stream<!dfcir.fixed<false, 32, 0>>) : !dfcir.stream<!dfcir.fixed<false, 32, 0>> {latency = -1 : i32}\n" ++
  chars! "    %5 = dfcir.output<!dfcir.fixed<false, 32, 0>> (\"out\") {operandSegmentSizes = array<i32: 0, 0>}\n" ++
  chars! "    dfcir.connect(%5 : !dfcir.stream<!dfcir.fixed<false, 32, 0>>, %4 : !dfcir.stream<!dfcir.fixed<false, 32, 0>>)\n" ++
  chars! "  }\n" ++
  chars! "}\n"

/-- /repo/test/examples/addconst/addconst.mlir. -/
def addConstText : List Char :=
  chars! "module {\n" ++
  chars! "  dfcir.kernel \"AddConst\" {\n" ++
  chars! "    %0 = dfcir.constant<!dfcir.fixed<false, 32, 0>> 5 : ui32\n" ++
  chars! "    %1 = dfcir.input<!dfcir.fixed<false, 32, 0>> (\"x\")\n" ++
  chars! "    %2 = dfcir.add[?] (%1 : !dfcir.stream<!dfcir.fixed<false, 32, 0>>, %1 : !dfcir.stream<!dfcir.fixed<false, 32, 0>>) : !dfcir.stream<!dfcir.fixed<false, 32, 0>> {latency = -1 : i32}\n" ++
  chars! "    %3 = dfcir.add[?] (%2 : !dfcir.stream<!dfcir.fixed<false, 32, 0>>, %0 : !dfcir.const<!dfcir.fixed<false, 32, 0>>) : !dfcir.stream<!dfcir.fixed<false, 32, 0>> {latency = -1 : i32}\n" ++
  chars! "    %4 = dfcir.add[?] (%3 : !dfcir.stream<!dfcir.fixed<false, 32, 0>>, %1 : !dfcir.stream<!dfcir.fixed<false, 32, 0>>) : !dfcir.stream<!dfcir.fixed<false, 32, 0>> {latency = -1 : i32}\n" ++
  chars! "    %5 = dfcir.output<!dfcir.fixed<false, 32, 0>> (\"out\") {operandSegmentSizes = array<i32: 0, 0>}\n" ++
  chars! "    dfcir.connect(%5 : !dfcir.stream<!dfcir.fixed<false, 32, 0>>, %4 : !dfcir.stream<!dfcir.fixed<false, 32, 0>>)\n" ++
  chars! "  }\n" ++
  chars! "}\n"

/-- /repo/test/examples/muxmul/muxmul.mlir. -/
def muxMulText : List Char :=
  chars! "module {\n" ++
  chars! "  dfcir.kernel \"MuxMul\" {\n" ++
  chars! "    %0 = dfcir.constant<!dfcir.fixed<false, 32, 0>> 1 : ui32\n" ++
  chars! "    %1 = dfcir.constant<!dfcir.fixed<false, 32, 0>> 0 : ui32\n" ++
  chars! "    %2 = dfcir.input<!dfcir.fixed<false, 1, 0>> (\"ctrl\")\n" ++
  chars! "    %3 = dfcir.mux(%2: !dfcir.stream<!dfcir.fixed<false, 1, 0>>, %0, %1) : !dfcir.const<!dfcir.fixed<false, 32, 0>>\n" ++
  chars! "    %4 = dfcir.input<!dfcir.fixed<false, 32, 0>> (\"x\")\n" ++
  chars! "    %5 = dfcir.add[?] (%4 : !dfcir.stream<!dfcir.fixed<false, 32, 0>>, %4 : !dfcir.stream<!dfcir.fixed<false, 32, 0>>) : !dfcir.stream<!dfcir.fixed<false, 32, 0>> {latency = -1 : i32}\n" ++
  chars! "    %6 = dfcir.mul[?] (%5 : !dfcir.stream<!dfcir.fixed<false, 32, 0>>, %3 : !dfcir.const<!dfcir.fixed<false, 32, 0>>) : !dfcir.stream<!dfcir.fixed<false, 32, 0>> {latency = -1 : i32}\n" ++
  chars! "    %7 = dfcir.output<!dfcir.fixed<false, 32, 0>> (\"out\") {operandSegmentSizes = array<i32: 0, 0>}\n" ++
  chars! "    dfcir.connect(%7 : !dfcir.stream<!dfcir.fixed<false, 32, 0>>, %6 : !dfcir.stream<!dfcir.fixed<false, 32, 0>>)\n" ++
  chars! "  }\n" ++
  chars! "}\n"

def muxMulFile : File :=
  let u1 : Ty := .fixed false 1 0
  let u : Ty := .fixed false 32 0
  ⟨"MuxMul".toList, [.constant u ⟨.unsigned, 32, 1⟩, .constant u ⟨.unsigned, 32, 0⟩, .input u1 "ctrl".toList none, .mux 2 [0, 1] (.wrap .const u),
    .input u "x".toList none, .sched2 .add noLatency 4 4 (.wrap .stream u), .sched2 .mul noLatency 5 3 (.wrap .stream u),
    .output u "out".toList none none, .connect 7 6]⟩

/-- The kernel of movingsum.h prints exactly as the file in the repository. -/
theorem movingSum_printed (F : FloatOps) : ∃ w prog f, World.init.run F movingSum = .ok w ∧ buildBody w.view [0, 2, 1, 3, 4, 5] = .ok prog ∧
    fileText "MovingSum" prog = some f ∧ print f = movingSumText := by
  refine ⟨_, _, _, rfl, rfl, rfl, ?_⟩
  decide +kernel

theorem addConst_printed (F : FloatOps) : ∃ w prog f, World.init.run F addConst = .ok w ∧ buildBody w.view [1, 0, 2, 3, 4, 5] = .ok prog ∧
    fileText "AddConst" prog = some f ∧ print f = addConstText := by
  refine ⟨_, _, _, rfl, rfl, rfl, ?_⟩
  decide +kernel

theorem muxMul_printed : print muxMulFile = muxMulText := by decide +kernel

/-- Non-vacuity of `print_parse`: a module with constants, a multiplexer, operators and a connection. -/
theorem muxMul_ok : FileOK muxMulFile := by
  simp [FileOK, muxMulFile, BlockOK, StmtOK, NameOK, TyOK, AttrOK, LatOK, Stmt.res, noLatency, intAttr]

theorem muxMul_parsed : parse (fun a _ => a) muxMulText = some muxMulFile := by
  rw [← muxMul_printed]
  exact print_parse (fun _ => rfl) muxMul_ok

/-- Non-vacuity of `api_text_parses`: the kernel of C58. -/
example (F : FloatOps) : ∀ n ∈ exGraph.nodes, FieldsFit ((after F exCmds).view n) := by
  intro n hn
  have hn : n ∈ [5, 0, 4] := hn
  simp only [List.mem_cons, List.not_mem_nil, or_false] at hn
  rcases hn with rfl | rfl | rfl <;> exact ⟨⟨by decide, by decide⟩, trivial⟩

/-- An operation of every kind, with control and source operands, wide and negative constants, names with quotes and line breaks. -/
def allOps : File :=
  let t : Ty := .fixed true 7 0
  let s : Ty := .wrap .stream t
  ⟨['k', '"', '\\', '\n'],
   [.scalarInput t "n".toList, .input t "x".toList none, .input t "y".toList (some 1), .constant t ⟨.signed, 8, 200⟩, .counter t 0,
    .sched1 .neg ⟨.signless, 32, 2⟩ 1 s, .sched1 .cast noLatency 1 (.wrap .stream (.float 8 24)), .sched2 .rem ⟨.signless, 32, 0⟩ 1 3 s,
    .sched2 .lessEq noLatency 1 3 (.wrap .stream (.fixed false 1 0)), .comb2 .cat 1 2 (.wrap .stream (.rawbits 16)), .not 1 s,
    .offset 1 ⟨.signless, 64, 2 ^ 64 - 3⟩ s, .convert 3 s, .mux 1 [3, 5, 4] s, .bits 1 ⟨.signless, 32, 7⟩ ⟨.signless, 32, 4⟩ (.wrap .stream (.rawbits 4)),
    .shift .shr 1 ⟨.signless, 32, 3⟩ s, .latency ⟨.signless, 32, 4⟩ 1 s, .output t "z".toList (some 1) (some 15), .scalarOutput t "w".toList (some 3),
    .constant (.rawbits 1) ⟨.signless, 1, 1⟩, .connect 17 13]⟩

theorem allOps_ok : FileOK allOps := by
  simp [FileOK, allOps, BlockOK, StmtOK, NameOK, TyOK, AttrOK, LatOK, Stmt.res, noLatency, intAttr]

/-- The text of the operation with the edited latency: `pick` decides what an operation with two different latencies means. -/
example : parse (fun a _ => a) (chars! "module { dfcir.kernel \"k\" { %0 = dfcir.input<!dfcir.rawbits<4>> (\"x\") " ++
    chars! "%a = dfcir.neg[3 : i32] (%0 : !dfcir.stream<!dfcir.rawbits<4>>) : !dfcir.stream<!dfcir.rawbits<4>> {latency = -1 : i32} } }") =
    some ⟨['k'], [.input (.rawbits 4) ['x'] none, .sched1 .neg ⟨.signless, 32, 3⟩ 0 (.wrap .stream (.rawbits 4))]⟩ := by decide +kernel

/-- Uses before definitions, wrong types and numbers that do not fit are rejected. -/
example : parse (fun a _ => a) (chars! "module { dfcir.kernel \"k\" { dfcir.connect(%1 : i32, %1 : i32) } }") = none := by decide +kernel
example : parse (fun a _ => a) (chars! "module { dfcir.kernel \"k\" { %0 = dfcir.constant<!dfcir.rawbits<4>> 16 : ui4 } }") = none := by decide +kernel

/-- A stated type that is not the operand's, a second definition of a name, text after the module, a positive literal over the maximum, a minimum. -/
example : parse (fun a _ => a) (chars! "module { dfcir.kernel \"k\" { %0 = dfcir.input<!dfcir.rawbits<4>> (\"x\") " ++
    chars! "dfcir.connect(%0 : !dfcir.stream<!dfcir.rawbits<4>>, %0 : !dfcir.stream<!dfcir.rawbits<5>>) } }") = none := by decide +kernel
example : parse (fun a _ => a) (chars! "module { dfcir.kernel \"k\" { %0 = dfcir.input<!dfcir.rawbits<4>> (\"x\") " ++
    chars! "%0 = dfcir.input<!dfcir.rawbits<4>> (\"y\") } }") = none := by decide +kernel
example : parse (fun a _ => a) (chars! "module { dfcir.kernel \"k\" { } } }") = none := by decide +kernel
example : parse (fun a _ => a) (chars! "module { dfcir.kernel \"k\" { %0 = dfcir.constant<!dfcir.rawbits<4>> 8 : si4 } }") = none := by decide +kernel

/-- Non-vacuity of `parse_ok`: hand-written text with names, comments, elided result names and a control operand. -/
def handWritten : List Char :=
  chars! "// a comment\nmodule{dfcir.kernel \"k\\22\" {\n%x=dfcir.input<!dfcir.fixed<0,8,0>>(\"x\")\n" ++
  chars! "dfcir.constant<!dfcir.fixed<true, 3, 0>> -8 : si4\n%y_1 = dfcir.neg[?](%x : !dfcir.stream<!dfcir.fixed<false, 8, 0>>):!dfcir.stream<i8>\n" ++
  chars! "dfcir.output<!dfcir.fixed<false, 8, 0>> (\"o\", %x : !dfcir.stream<!dfcir.fixed<false, 8, 0>>) <= %y_1 : !dfcir.stream<i8> }}"

theorem handWritten_parsed : parse (fun a _ => a) handWritten = some ⟨['k', '"'],
    [.input (.fixed false 8 0) ['x'] none, .constant (.fixed true 3 0) ⟨.signed, 4, 8⟩, .sched1 .neg noLatency 0 (.wrap .stream (.int .signless 8)),
      .output (.fixed false 8 0) ['o'] (some 0) (some 2)]⟩ := by decide +kernel

example : Bytes handWritten := by unfold Bytes; decide +kernel

end Verif.Text
