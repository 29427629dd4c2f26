import Verif.Vlog.Model
import Verif.Tpl.Tac
import Verif.Tpl.Chars
/-
The template of the stub generator, parsed.
-/
namespace Verif.Vlog
open Verif.Tpl

def licenseBody : List Node :=
  [.text (chars% "\n\n\n\n\n\n\n\n")]

def fifoBody : List Node :=
  [.text (chars% "module "), .var "MODULE_NAME", .text (chars% " (input ["), .var "WIDTH", .text (chars% ":0] "), .var "ARG1",
  .text (chars% ", output ["), .var "WIDTH", .text (chars% ":0] "), .var "RES1", .text (chars% ", input "), .var "CLK", .text (chars% ");\n  reg ["),
  .var "WIDTH", .text (chars% ":0] r["), .var "LATENCY", .text (chars% ":0];\n\n  integer i;\n  always @ (posedge "), .var "CLK",
  .text (chars% ") begin\n    for (i = "), .var "LATENCY", .text (chars% "; i != 0; i = i - 1) begin\n      r[i] <= r[i - 1];\n    end\n    r[0] <= "),
  .var "ARG1", .text (chars% ";\n  end\n  assign "), .var "RES1", .text (chars% " = r["), .var "LATENCY", .text (chars% "];\nendmodule // "),
  .var "MODULE_NAME", .text (chars% "\n\n")]

def combCastBody : List Node :=
  [.text (chars% "module "), .var "MODULE_NAME", .text (chars% " (input ["), .var "WIDTH1", .text (chars% ":0] "), .var "ARG1",
  .text (chars% ", output ["), .var "WIDTH2", .text (chars% ":0] "), .var "RES1", .text (chars% ", input "), .var "CLK", .text (chars% ");\n  wire ["),
  .var "CAT", .text (chars% ":0] cat;\n\n  assign cat = {{"), .var "REPEAT", .text (chars% "{"), .var "REPEAT_VAL", .text (chars% "}}, "), .var "ARG1",
  .text (chars% "};\n  assign "), .var "RES1", .text (chars% " = cat["), .var "WIDTH2", .text (chars% ":0];\nendmodule // "), .var "MODULE_NAME",
  .text (chars% "\n\n")]

def castBody : List Node :=
  [.text (chars% "module "), .var "MODULE_NAME", .text (chars% " (input ["), .var "WIDTH1", .text (chars% ":0] "), .var "ARG1",
  .text (chars% ", output ["), .var "WIDTH2", .text (chars% ":0] "), .var "RES1", .text (chars% ", input "), .var "CLK", .text (chars% ");\n  reg ["),
  .var "WIDTH1", .text (chars% ":0] r["), .var "LATENCY", .text (chars% ":0];\n  wire ["), .var "CAT",
  .text (chars% ":0] cat;\n\n  integer i;\n  always @ (posedge "), .var "CLK", .text (chars% ") begin\n    for (i = "), .var "LATENCY",
  .text (chars% "; i != 0; i = i - 1) begin\n      r[i] <= r[i - 1];\n    end\n    r[0] <= "), .var "ARG1", .text (chars% ";\n  end\n  assign cat = {{"),
  .var "REPEAT", .text (chars% "{"), .var "REPEAT_VAL", .text (chars% "}}, r["), .var "LATENCY", .text (chars% "]};\n  assign "), .var "RES1",
  .text (chars% " = cat["), .var "WIDTH2", .text (chars% ":0];\nendmodule // "), .var "MODULE_NAME", .text (chars% "\n\n")]

def combBinaryBody : List Node :=
  [.text (chars% "module "), .var "MODULE_NAME", .text (chars% " (input "), .var "SIGNED1", .text (chars% "["), .var "WIDTH1", .text (chars% ":0] "),
  .var "ARG1", .text (chars% ", input "), .var "SIGNED2", .text (chars% "["), .var "WIDTH2", .text (chars% ":0] "), .var "ARG2",
  .text (chars% ", output "), .var "SIGNED3", .text (chars% "["), .var "WIDTH3", .text (chars% ":0] "), .var "RES1", .text (chars% ", input "),
  .var "CLK", .text (chars% ");\n  wire ["), .var "RWIDTH", .text (chars% ":0] r;\n  wire ["), .var "CAT", .text (chars% ":0] cat;\n\n  wire "),
  .var "SIGNED1", .text (chars% "["), .var "PREPARED_WIDTH", .text (chars% ":0] "), .var "ARG1", .text (chars% "_prepared;\n  wire "), .var "SIGNED2",
  .text (chars% "["), .var "PREPARED_WIDTH", .text (chars% ":0] "), .var "ARG2", .text (chars% "_prepared;\n\n  assign "), .var "ARG1",
  .text (chars% "_prepared = {{"), .var "REPEAT1", .text (chars% "{"), .var "REPEAT_VAL1", .text (chars% "}}, "), .var "ARG1",
  .text (chars% "};\n  assign "), .var "ARG2", .text (chars% "_prepared = {{"), .var "REPEAT2", .text (chars% "{"), .var "REPEAT_VAL2",
  .text (chars% "}}, "), .var "ARG2", .text (chars% "};\n\n  assign r = "), .var "ARG1", .text (chars% "_prepared "), .var "OP", .text (chars% " "),
  .var "ARG2", .text (chars% "_prepared;\n\n  assign cat = {{"), .var "REPEAT3", .text (chars% "{"), .var "REPEAT_VAL3",
  .text (chars% "}}, r};\n  assign "), .var "RES1", .text (chars% " = cat["), .var "WIDTH3", .text (chars% ":0];\nendmodule // "), .var "MODULE_NAME",
  .text (chars% "\n\n")]

def binaryBody : List Node :=
  [.text (chars% "module "), .var "MODULE_NAME", .text (chars% " (input "), .var "SIGNED1", .text (chars% "["), .var "WIDTH1", .text (chars% ":0] "),
  .var "ARG1", .text (chars% ", input "), .var "SIGNED2", .text (chars% "["), .var "WIDTH2", .text (chars% ":0] "), .var "ARG2",
  .text (chars% ", output "), .var "SIGNED3", .text (chars% "["), .var "WIDTH3", .text (chars% ":0] "), .var "RES1", .text (chars% ", input "),
  .var "CLK", .text (chars% ");\n  reg ["), .var "RWIDTH", .text (chars% ":0] r["), .var "LATENCY", .text (chars% ":0];\n  wire ["), .var "CAT",
  .text (chars% ":0] cat;\n\n  wire "), .var "SIGNED1", .text (chars% "["), .var "PREPARED_WIDTH", .text (chars% ":0] "), .var "ARG1",
  .text (chars% "_prepared;\n  wire "), .var "SIGNED2", .text (chars% "["), .var "PREPARED_WIDTH", .text (chars% ":0] "), .var "ARG2",
  .text (chars% "_prepared;\n\n  assign "), .var "ARG1", .text (chars% "_prepared = {{"), .var "REPEAT1", .text (chars% "{"), .var "REPEAT_VAL1",
  .text (chars% "}}, "), .var "ARG1", .text (chars% "};\n  assign "), .var "ARG2", .text (chars% "_prepared = {{"), .var "REPEAT2", .text (chars% "{"),
  .var "REPEAT_VAL2", .text (chars% "}}, "), .var "ARG2", .text (chars% "};\n\n  integer i;\n  always @ (posedge "), .var "CLK",
  .text (chars% ") begin\n    for (i = "), .var "LATENCY", .text (chars% "; i != 0; i = i - 1) begin\n      r[i] <= r[i - 1];\n    end\n    r[0] <= "),
  .var "ARG1", .text (chars% "_prepared "), .var "OP", .text (chars% " "), .var "ARG2", .text (chars% "_prepared;\n  end\n  assign cat = {{"),
  .var "REPEAT3", .text (chars% "{"), .var "REPEAT_VAL3", .text (chars% "}}, r["), .var "LATENCY", .text (chars% "]};\n  assign "), .var "RES1",
  .text (chars% " = cat["), .var "WIDTH3", .text (chars% ":0];\nendmodule // "), .var "MODULE_NAME", .text (chars% "\n\n")]

def nodes : List Node :=
  [.sec "LICENSE" licenseBody, .text (chars% "// This file has been automatically generated by Utopia HLS at "), .var "GEN_TIME", .text (chars% ".\n\n"),
  .sec "FIFO_MODULES" fifoBody, .text (chars% "\n"), .sec "COMB_CAST_MODULES" combCastBody, .text (chars% "\n"), .sec "CAST_MODULES" castBody,
  .text (chars% "\n"), .sec "COMB_BINARY_MODULES" combBinaryBody, .text (chars% "\n"), .sec "BINARY_MODULES" binaryBody, .text (chars% "\n")]

theorem parse_template : parse template.toList = some nodes := by kernel_parse

end Verif.Vlog
