import Verif.Tpl.Model
import Verif.Hw.Names
/-
Model of the stub generator's text: /repo/src/model/dfcir/templates/stubs.tpl and
/repo/src/model/dfcir/lib/dfcir/passes/FIRRTLStubsGeneratorPass.cpp.
-/
namespace Verif.Vlog
open Verif.Hw Verif.Tpl

/-- /repo/src/model/dfcir/templates/stubs.tpl, whole. -/
def template : String :=
"{{#LICENSE}}
{{!===---------------------------------------------------------------------===}}
{{!                                                                           }}
{{! Part of the Utopia HLS Project, under the Apache License v2.0             }}
{{! SPDX-License-Identifier: Apache-2.0                                       }}
{{! Copyright 2024-2025 ISP RAS (http://www.ispras.ru)                        }}
{{!                                                                           }}
{{!===---------------------------------------------------------------------===}}
{{/LICENSE}}// This file has been automatically generated by Utopia HLS at {{GEN_TIME}}.

{{#FIFO_MODULES}}module {{MODULE_NAME}} (input [{{WIDTH}}:0] {{ARG1}}, output [{{WIDTH}}:0] {{RES1}}, input {{CLK}});
  reg [{{WIDTH}}:0] r[{{LATENCY}}:0];

  integer i;
  always @ (posedge {{CLK}}) begin
    for (i = {{LATENCY}}; i != 0; i = i - 1) begin
      r[i] <= r[i - 1];
    end
    r[0] <= {{ARG1}};
  end
  assign {{RES1}} = r[{{LATENCY}}];
endmodule // {{MODULE_NAME}}

{{/FIFO_MODULES}}
{{#COMB_CAST_MODULES}}module {{MODULE_NAME}} (input [{{WIDTH1}}:0] {{ARG1}}, output [{{WIDTH2}}:0] {{RES1}}, input {{CLK}});
  wire [{{CAT}}:0] cat;

  assign cat = {{{{REPEAT}}{{{REPEAT_VAL}}}}, {{ARG1}}};
  assign {{RES1}} = cat[{{WIDTH2}}:0];
endmodule // {{MODULE_NAME}}

{{/COMB_CAST_MODULES}}
{{#CAST_MODULES}}module {{MODULE_NAME}} (input [{{WIDTH1}}:0] {{ARG1}}, output [{{WIDTH2}}:0] {{RES1}}, input {{CLK}});
  reg [{{WIDTH1}}:0] r[{{LATENCY}}:0];
  wire [{{CAT}}:0] cat;

  integer i;
  always @ (posedge {{CLK}}) begin
    for (i = {{LATENCY}}; i != 0; i = i - 1) begin
      r[i] <= r[i - 1];
    end
    r[0] <= {{ARG1}};
  end
  assign cat = {{{{REPEAT}}{{{REPEAT_VAL}}}}, r[{{LATENCY}}]};
  assign {{RES1}} = cat[{{WIDTH2}}:0];
endmodule // {{MODULE_NAME}}

{{/CAST_MODULES}}
{{#COMB_BINARY_MODULES}}module {{MODULE_NAME}} (input {{SIGNED1}}[{{WIDTH1}}:0] {{ARG1}}, input {{SIGNED2}}[{{WIDTH2}}:0] {{ARG2}}, output {{SIGNED3}}[{{WIDTH3}}:0] {{RES1}}, input {{CLK}});
  wire [{{RWIDTH}}:0] r;
  wire [{{CAT}}:0] cat;

  wire {{SIGNED1}}[{{PREPARED_WIDTH}}:0] {{ARG1}}_prepared;
  wire {{SIGNED2}}[{{PREPARED_WIDTH}}:0] {{ARG2}}_prepared;

  assign {{ARG1}}_prepared = {{{{REPEAT1}}{{{REPEAT_VAL1}}}}, {{ARG1}}};
  assign {{ARG2}}_prepared = {{{{REPEAT2}}{{{REPEAT_VAL2}}}}, {{ARG2}}};

  assign r = {{ARG1}}_prepared {{OP}} {{ARG2}}_prepared;

  assign cat = {{{{REPEAT3}}{{{REPEAT_VAL3}}}}, r};
  assign {{RES1}} = cat[{{WIDTH3}}:0];
endmodule // {{MODULE_NAME}}

{{/COMB_BINARY_MODULES}}
{{#BINARY_MODULES}}module {{MODULE_NAME}} (input {{SIGNED1}}[{{WIDTH1}}:0] {{ARG1}}, input {{SIGNED2}}[{{WIDTH2}}:0] {{ARG2}}, output {{SIGNED3}}[{{WIDTH3}}:0] {{RES1}}, input {{CLK}});
  reg [{{RWIDTH}}:0] r[{{LATENCY}}:0];
  wire [{{CAT}}:0] cat;

  wire {{SIGNED1}}[{{PREPARED_WIDTH}}:0] {{ARG1}}_prepared;
  wire {{SIGNED2}}[{{PREPARED_WIDTH}}:0] {{ARG2}}_prepared;

  assign {{ARG1}}_prepared = {{{{REPEAT1}}{{{REPEAT_VAL1}}}}, {{ARG1}}};
  assign {{ARG2}}_prepared = {{{{REPEAT2}}{{{REPEAT_VAL2}}}}, {{ARG2}}};

  integer i;
  always @ (posedge {{CLK}}) begin
    for (i = {{LATENCY}}; i != 0; i = i - 1) begin
      r[i] <= r[i - 1];
    end
    r[0] <= {{ARG1}}_prepared {{OP}} {{ARG2}}_prepared;
  end
  assign cat = {{{{REPEAT3}}{{{REPEAT_VAL3}}}}, r[{{LATENCY}}]};
  assign {{RES1}} = cat[{{WIDTH3}}:0];
endmodule // {{MODULE_NAME}}

{{/BINARY_MODULES}}
"

/-- `%d` (widths and latencies are far from the limits of `int32_t`). -/
def fmtD (i : Int) : List Char := if i < 0 then '-' :: Hw.dec (-i).toNat else Hw.dec i.toNat

/-- `%u` of `latency - 1` in `uint32_t`. -/
def fmtLatency (latency : Nat) : List Char := Hw.dec ((latency + 2 ^ 32 - 1) % 2 ^ 32)

/-- The ports of an external module (DFCIRToFIRRTLPass.cpp:324-364): `res1`, `arg1`, `arg2`, `clk`. -/
def res1 : List Char := ['r', 'e', 's', '1']
def arg1 : List Char := ['a', 'r', 'g', '1']
def arg2 : List Char := ['a', 'r', 'g', '2']
def clk : List Char := ['c', 'l', 'k']

def FTy.isSigned : FTy → Bool
  | .sint _ => true
  | .uint _ => false

/-- `"1'h0"`. -/
def zeroBit : List Char := ['1', '\'', 'h', '0']

/-- `"%s[%d]"`. -/
def topBit (x : List Char) (w : Nat) : List Char := x ++ ['['] ++ fmtD ((w : Int) - 1) ++ [']']

/-- `LATENCY` and `MODULE_NAME` (FIRRTLStubsGeneratorPass.cpp:215-220). -/
def common (m : Module) : List (String × List Char) := [("LATENCY", fmtLatency m.latency), ("MODULE_NAME", m.name)]

/-- `processFIFOModule` (lines 42-54): the type of `res1` gives the width. -/
def fifoDict (m : Module) : Dict :=
  .mk ([("WIDTH", fmtD ((m.res.width : Int) - 1)), ("RES1", res1), ("ARG1", arg1), ("CLK", clk)] ++ common m) []

/-- `processSimpleCastModule` (lines 56-91); `ta`: the type of `arg1`. -/
def castDict (m : Module) (ta : FTy) : Dict :=
  .mk ([("RES1", res1), ("ARG1", arg1), ("CLK", clk), ("WIDTH2", fmtD ((m.res.width : Int) - 1)), ("WIDTH1", fmtD ((ta.width : Int) - 1)),
    ("REPEAT", fmtD (max ((m.res.width : Int) - ta.width) 0)), ("CAT", fmtD (max (m.res.width : Int) ta.width - 1)),
    ("REPEAT_VAL", if FTy.isSigned m.res then topBit arg1 ta.width else zeroBit)] ++ common m) []

/-- `opChar` (lines 97-122). -/
def opChars : VOp → List Char
  | .add => ['+']
  | .sub => ['-']
  | .mul => ['*']
  | .le => ['<', '=']
  | .ge => ['>', '=']
  | .lt => ['<']
  | .gt => ['>']
  | .eq => ['=', '=']
  | .ne => ['!', '=']
  | .and => ['&']
  | .or => ['|']
  | .xor => ['^']

/-- `isCompOp` (lines 98-117). -/
def isCompOp : VOp → Bool
  | .le | .ge | .lt | .gt | .eq | .ne => true
  | _ => false

def signedText (t : FTy) : List Char := if FTy.isSigned t then ['s', 'i', 'g', 'n', 'e', 'd', ' '] else []

/-- `processBinModule` (lines 93-192); `ta`, `tb`: the types of `arg1` and `arg2`.  `REPEAT_VAL3` is printed by `"r[%d][%d]"` from `latency - 1`, which
for latency 0 is -1. -/
def binDict (m : Module) (op : VOp) (ta tb : FTy) : Dict :=
  let width3 : Int := m.res.width
  let width1 : Int := ta.width
  let width2 : Int := tb.width
  let rWidth : Int := if isCompOp op then 1 else max width1 width2
  .mk ([("OP", opChars op), ("RES1", res1), ("ARG1", arg1), ("ARG2", arg2), ("CLK", clk), ("SIGNED3", signedText m.res), ("WIDTH3", fmtD (width3 - 1)),
    ("SIGNED1", signedText ta), ("WIDTH1", fmtD (width1 - 1)), ("SIGNED2", signedText tb), ("WIDTH2", fmtD (width2 - 1)), ("RWIDTH", fmtD (rWidth - 1)),
    ("PREPARED_WIDTH", fmtD (max width1 width2 - 1)), ("REPEAT1", fmtD (max (rWidth - width1) 0)), ("REPEAT2", fmtD (max (rWidth - width2) 0)),
    ("REPEAT3", fmtD (max (width3 - rWidth) 0)), ("CAT", fmtD (max width3 rWidth - 1)),
    ("REPEAT_VAL1", if FTy.isSigned m.res then topBit arg1 ta.width else zeroBit),
    ("REPEAT_VAL2", if FTy.isSigned m.res then topBit arg2 tb.width else zeroBit),
    ("REPEAT_VAL3", if FTy.isSigned m.res then ['r', '['] ++ fmtD ((m.latency : Int) - 1) ++ [']', '['] ++ fmtD (rWidth - 1) ++ [']'] else zeroBit)] ++
      common m) []

/-- `fillDictionary` (lines 194-221) for one module: the section and its dictionary. -/
def moduleDict (m : Module) : Option (String × Dict) :=
  match stubOf m.name, m.args with
  | some .fifo, _ => some ("FIFO_MODULES", fifoDict m)
  | some .cast, ta :: _ => some (if m.latency = 0 then "COMB_CAST_MODULES" else "CAST_MODULES", castDict m ta)
  | some (.binary op), ta :: tb :: _ => some (if m.latency = 0 then "COMB_BINARY_MODULES" else "BINARY_MODULES", binDict m op ta tb)
  | _, _ => none

/-- The dictionaries of a section. -/
def sectionDicts (ms : List Module) (n : String) : List Dict :=
  ms.filterMap fun m => match moduleDict m with
    | some (n', d) => if n' = n then some d else none
    | none => none

def sectionNames : List String := ["FIFO_MODULES", "COMB_CAST_MODULES", "CAST_MODULES", "COMB_BINARY_MODULES", "BINARY_MODULES"]

/-- The dictionary of the template; `time`: the time as printed at lines 222-231. -/
def dict (ms : List Module) (time : List Char) : Dict :=
  .mk [("GEN_TIME", time)] (sectionNames.filterMap fun n => if sectionDicts ms n = [] then none else some (n, sectionDicts ms n))

/-- `generateOutput` (lines 235-252): the text of the library for the external modules of a circuit, in order. -/
def libText (ms : List Module) (time : List Char) : List Char := render template.toList (dict ms time)

end Verif.Vlog
