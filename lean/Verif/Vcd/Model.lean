import Verif.Tpl.Model
import Verif.Dfcxx.SimIO
import Verif.Dfcxx.WorldSpec
import Verif.Driver.Model
/-
Model of the text of the value change dump and of `sim` mode: /repo/src/model/dfcxx/lib/dfcxx/simulator.cpp:252-356,
/repo/src/model/dfcxx/templates/vcd.tpl, /repo/src/model/dfcxx/lib/dfcxx/kernel.cpp:235-246, /repo/src/main.cpp:55-59.
-/
namespace Verif.Vcd
open Verif.Dfcxx Verif.Driver Verif.Tpl

/-- /repo/src/model/dfcxx/templates/vcd.tpl, whole. -/
def template : String :=
"$date {{GEN_TIME}} $end
$version Utopia HLS $end
$timescale 1ps $end

$scope module logic $end
{{#VARS}}$var wire {{WIDTH}} {{NAME}} {{NAME}} $end
{{/VARS}}$upscope $end
$enddefinitions $end

$dumpvars
{{#INIT_VARS}}b{{INIT_VALUE}} {{NAME}}
{{/INIT_VARS}}$end

{{#TICKS}}#{{TICK}}
{{#VALUES}}b{{VALUE}} {{NAME}}
{{/VALUES}}
{{/TICKS}}#{{FINAL_TICK}}
"

/-- The numbers printed for the local time (simulator.cpp:277-284): `tm_mday`, `tm_mon + 1`, `tm_year + 1900`, `tm_hour`, `tm_min`, `tm_sec`. -/
structure Clock where
  day : Nat
  month : Nat
  year : Nat
  hour : Nat
  minute : Nat
  second : Nat

/-- `std::to_string`, and `%d`. -/
def dec (n : Nat) : List Char := (toString n).toList

/-- `"%d-%d-%d %d:%d:%d"` (simulator.cpp:278). -/
def Clock.text (c : Clock) : List Char :=
  dec c.day ++ "-".toList ++ dec c.month ++ "-".toList ++ dec c.year ++ " ".toList ++ dec c.hour ++ ":".toList ++ dec c.minute ++ ":".toList ++ dec c.second

/-- One `VARS` dictionary (simulator.cpp:305-309). -/
def varDict (p : String × Nat) : Dict := .mk [("WIDTH", dec p.2), ("NAME", p.1.toList)] []

/-- One `INIT_VARS` dictionary (simulator.cpp:311-314). -/
def initDict (p : String × Nat) : Dict := .mk [("INIT_VALUE", List.replicate p.2 'x'), ("NAME", p.1.toList)] []

/-- One `VALUES` dictionary (simulator.cpp:261-266). -/
def valueDict (p : String × List Char) : Dict := .mk [("VALUE", p.2), ("NAME", p.1.toList)] []

/-- One `TICKS` dictionary (simulator.cpp:257-267). -/
def tickDict (r : TickRec) : Dict :=
  .mk [("TICK", dec r.tick)] (if r.values = [] then [] else [("VALUES", r.values.map valueDict)])

/-- A section that gets no dictionary is not entered in the table. -/
def section? (n : String) (ds : List Dict) : List (String × List Dict) := if ds = [] then [] else [(n, ds)]

/-- The dictionary when the simulation is over (simulator.cpp:318-346): the header is generated with the first tick, so without ticks `GEN_TIME` has no
value. -/
def dict (now : Clock) (v : Vcd) : Dict :=
  .mk ((if v.ticks = [] then [] else [("GEN_TIME", now.text)]) ++ [("FINAL_TICK", dec v.final)])
    (section? "VARS" (v.vars.map varDict) ++ section? "INIT_VARS" (v.vars.map initDict) ++ section? "TICKS" (v.ticks.map tickDict))

/-- `result` (simulator.cpp:347-353): the text written to the output file. -/
def text (now : Clock) (v : Vcd) : List Char := render template.toList (dict now v)

/-- `Kernel::simulate` (kernel.cpp:235-246) and `simMain` (main.cpp:55-59).

* `G`: the kernel's graph as enumerated; `it`: the order in which the table of values is enumerated; `now`: the time.
* An input file that does not exist cannot be opened; that ends the run.  The output file is not examined: if it cannot be opened (`canOpen`), what is
  written to it is lost.  Opening it empties it; the input is read afterwards.
* What is read: the characters of the file at the path `inp`. -/
def simMain (F : FloatOps) (canOpen : String → Bool) (now : Clock) (w : World) (G : TopSort.Graph Nat) (it : List Nat) (inp out : String) (fs : Files) :
    Except Fault (Nat × Files) :=
  match TopSort.topSort G with
  | .ok order =>
    match fs inp with
    | none => .ok (1, fs)
    | some _ =>
      let fs1 := if canOpen out then fs.put out "" else fs
      match simulate F w.view order it ((fs1 inp).getD "").toList with
      | .error f => .error f
      | .ok none => .ok (1, fs1)
      | .ok (some v) => .ok (0, if canOpen out then fs1.put out (String.ofList (text now v)) else fs1)
  | _ => .error .assertFail

end Verif.Vcd
