# Formal model of ispras/utopia-hls in Lean 4: design

(Initial version, written before the proofs; the section "Status and findings" at the end is kept current.)

## 1. Trusted base

* Lean 4.33.0 kernel; the axioms `propext`, `Classical.choice`, `Quot.sound` (at most) — checked with `#print axioms`.
  No own axioms, no `native_decide`, no `bv_decide`.
* The reading of the C++ sources into Lean definitions. The code is not run; every model definition cites the file
  and lines it models. All modelling decisions are listed per area below.
* Undefined behaviour, failed assertions and thrown exceptions are distinct outcomes of the model
  (`Option`/`Except`-like result types), never silently totalised.

## 2. Areas, what is modelled and how it is proved

| area | source | model | properties |
|---|---|---|---|
| processing order | `dfcxx/utils.cpp: topSort` | explicit-stack machine, arbitrary enumeration order | C01, C02, C11 |
| graph construction | `dfcxx/graph.cpp`, `vars/*.cpp`, `io.cpp`, `control.cpp`, `offset.cpp`, `constant.cpp`, `kernel.cpp` | state machine over API calls | C03, C04, C05, C08, C10, C12 |
| types | `dfcxx/types/*.cpp`, `type_builder.cpp` | width arithmetic with the exact storage sizes | C07, C08, C09 |
| constant folding | `vars/constant.cpp` | 64-bit machine arithmetic with UB as an outcome | C06 |
| simulator | `simulator.cpp` | value table + per-node functions on `BitVec 64`, file = list of lines | C13–C23 |
| DFCIR translation | `dfcir_builder.cpp` | list of ops with operand references | C24 |
| schedulers | `DFCIRScheduleUtils/ASAP/Linear/LPUtils` | fold over node list, constraint system, delay semantics on streams | C25–C32, C35, C36, C50 |
| combinational pipelining | `DFCIRCombPipelinePass`, `DFCIRPipelineUtils` | layers/cascades with an arbitrary float oracle | C33, C34 |
| FIRRTL lowering / names / stubs | `DFCIRToFIRRTLPass`, `FIRRTLStubsGeneratorPass`, `stubs.tpl` | string functions, register-transfer semantics | C37–C42 |
| std library | `std/algebra`, `std/crypto` | functions on `BitVec` | C43–C47 |
| options | `options.h`, `utils.cpp` | string functions | C48, C49 |
| exact hardware meaning | `DFCIRToFIRRTLPass`, `stubs.tpl` | specification `Flow/HwSpec` (`hwMeaning`, `HwVal`); units exactly (`Hw/StubsExact`), circuits (`Flow/Core`), agreement with the operators (`Flow/Agree`, `Flow/HwTotal`) | C68 |
| example kernels | `examples/{addconst,polynomial2,scalar3,matrixmul2,muxmul,movingsum}` | constructors as code over the API (`Flat/Model`), Hoare rules for exact values (`Flat/Rules`) | C69 |
| example ciphers, chains of instances | `examples/{kuznechik,kuznechik_inst,opt_kuznechik,polynomial2_inst}` (`galois8mul`, `magma`, `std_*` are the library kernels) | `Kernels/Model` with the differences as parameters (`Variant`), rule for folded shifts (`shlCst_does`), induction on the stages (`Kernels/Chain`) | C73, C74 |
| command line | `src/main.cpp`, `src/options.h`, `lib/CLI11/CLI/{App,Option,Split,TypeTools}.hpp` | the parser's loop as a terminating state machine (`Cli/Model`); the documented options and their notations as a relation (`Cli/Spec`); one lemma per written option, then induction on the line; composed with C66 | C75, C76 |
| simulation of the examples | `simulator.cpp`, `examples/*` | every node of the built kernel has a value on every tick (`Flow/SimTotal`, induction over the processing order), hence the simulation succeeds; its values are the streams established by the Hoare logic of `Verif/Flat`; kernels with unsupported or over-wide nodes never complete a step | C77 |
| the whole tool | `src/main.cpp`, `kernel.cpp:186-220`, `dfcir_processor.cpp:57-125` | the models of all stages as one instance of the driver's back end (`Whole/Model`); every stage succeeds on a kernel that is handled (`Whole/Stages`); composed with C66, C75, C58/C68 and the theorems about kernels (`Whole/{Props,Kernels}`). CIRCT, the printer of FIRRTL, and the enumeration orders are parameters | C78 |
| the dump and `sim` mode | `simulator.cpp:252-356`, `templates/vcd.tpl`, `kernel.cpp:235-246`, `main.cpp:55-59` | the template engine (`Tpl/Model`: tokens, nesting, dictionaries, expansion) applied to the template's own text; an independent reader of value change dumps (`Vcd/Spec`); the reader applied to the text is computed by lemmas on words (`Vcd/Read`); composed with the simulator (C15-C19, C59), the command line (C76) and the example kernels (C77). The engine is ctemplate, modelled from its documentation; also `dot.tpl` (`Tpl/Dot`, C65) | C79 |
| the stub library as Verilog | `stubs.tpl`, `FIRRTLStubsGeneratorPass.cpp` | the template's own text expanded by the template engine (`Vlog/Model`); a lexer, parser, legality check and cycle semantics of a Verilog subset written from IEEE 1364 (`Vlog/Spec`: expression sizes and signs, part selects, replication, nonblocking assignment, `for`, continuous assignment); the text is tokenised and parsed symbolically for all widths and latencies (`Vlog/{Lex,Parse,Source,Whole}`), the modules run (`Vlog/{Sem,Mods,Exist,Legality}`) and compared with the register-transfer model of C39-C42 (`Vlog/Library`), then with circuits, kernels and the tool (`Vlog/{Circuit,Tool}`) | C80 |
| scheduled DFCIR text | `DFCIRGraph.h:163-203`, `DFCIRPassesUtils.cpp`, `DFCIRScheduleUtils.cpp`, `DFCIROperations.td`, `dfcir_processor.cpp` | where inserted operations stand (`Sdf/Model`), invariant of the order of lines (`Sdf/{Order,Lines}`), the text read back (`Sdf/Read`, on top of C67), isomorphism of designs under renumbering of values (`Sdf/{Iso,Renumber}`), composed with the passes (`Sdf/Props`), example kernels (`Sdf/Kernels`) and the tool (`Whole/Props.delivered_scheduled`) | C81 |
| 32-bit arithmetic of the schedulers | `DFCIRASAPSchedulerPass.cpp`, `DFCIRScheduleUtils.cpp`, `DFCIRLinearSchedulerPass.cpp` | the computations with checked additions agree with those over the integers (`Sched/Range`), start times of a vertex of the LP are at most (operations · longest delay): no gap between start times is longer than the longest delay, else the point could move both ways (`lp_no_gap`), then counting; kernels: `Sdf/Fit` | C82 |
| least buffering of the linear scheduler | `DFCIRLinearSchedulerPass.cpp:118-148` | total of inserted stages against any correct schedule: an arbitrary schedule, with constants moved next to their only reader, is a feasible point (`Sched/Least`); for the failures two concrete kernels, every optimal answer is shown to insert more than ASAP by weighing constraints | C83 |
| ports of the module | `DFCIRToFIRRTLPass.cpp:139-204` | the scan of the scheduled block for named operations (`Sdf/Ports`); inserted buffers have numbers beyond the block and erased operations are offsets, so the scan finds what the kernel has; compared with the cells of the circuit; concrete kernels for clashes and for the order (`Sdf/PortsExamples`) | C84 |
| deletion of objects | `graph.cpp:18-27, 110-132`, `kernel.cpp:162-184`, `kernel_storage.cpp:29-55`, `kernel.h:78-103` | accounts of every `delete` beside the world model (`Dfcxx/Heap`): storages per kernel, list of deleted objects, leftovers of `merge` destroyed with the instance; types and temporaries not modelled; proved by an invariant over histories (`Dfcxx/HeapProps`) | C85 |
| static kernel registry | `kernel.cpp:27-35`, `kernel_meta.cpp:13-25`, `kernel.h:39-48, 98-103` | `kernelStack` and `KernelMeta::top` as a list and an option over arbitrary constructions and destructions (`Dfcxx/Registry`) | C86 |
| kernels to Verilog library | `stubs.tpl`, the kernels of the standard library and of `examples` | explicit bound of the number of nodes a constructor creates, by structural rules over the constructor code (`Kernels/Size`); with it every latency and buffer depth of the compiled design is below 2^31 (`Vlog/Bounded`); composed with C78 and C80 (`Vlog/Kernels`, examples in `Vlog/KernelsExamples`) | C87 |
| the DOT file as DOT | `kernel.cpp:71-160`, `templates/dot.tpl` | a reader of the DOT language written from the documentation of Graphviz (`Dot/Read`: lexer, parser, drawing with defaults and nodes created on first mention); the text of C65 is scanned and parsed symbolically (`Dot/ReadProps`), composed with C65 and the tool (`Dot/Readable`) | C88 |
| configuration files | `options.h:126-142, 316-337, 367-370, 404-407`; `lib/json/nlohmann/detail/input/{lexer,parser,json_sax}.hpp`, `conversions/from_json.hpp` | bytes to values: grammar of RFC 8259 and UTF-8 of RFC 3629 as inductive predicates (`Json/Spec`), lexer and parser with its stack as in the library (`Json/Model`); completeness by induction over the text, soundness by strong induction over the steps (`Json/Lex`, `Num`, `Parse`); values to latencies and paths (`Json/Config`, `Latency`), joined to `Config` by `fileLatency_doc`. Not modelled: positions and texts of error messages, doubles (text, finiteness, integer part are parameters there; `Ieee/Strtod` is the instance), comments (off), locales | C89 |
| the process | `main.cpp:60-85`, `options.h:388-398`, `src/CMakeLists.txt:32` | `Whole/Process`: `startup` of config.json, the command line, the latency file through `docOf` (equal to the reader by `docOf_reads`), then the tool of C78 or the simulator of C77; the theorems of C77 and C78 transferred by rewriting; which files are usable exactly: `Json/Exact`. Not modelled: permissions of input files, directories opened as files | C90 |
| floating point | `simulator.cpp:77-190`, `DFCIRPipelineUtils.cpp:153-215`, `strtod` of the JSON reader | IEEE 754 binary formats as predicates on bit patterns and rationals (`Ieee/Spec`); correctly rounded operations (`Ieee/Round`, `Ops`), proved to meet them, and the predicates to leave one result (`Ieee/Unique`); the abstract operations of the simulator, the pipeliner and the JSON reader instantiated (`Ieee/Machine`, `Ieee/Strtod`); trusted: the platform's `float` and `double` are IEEE, rounding to nearest, without excess precision | C91, C33, C89 |
| floating-point hardware | `DFCIRToFIRRTLPass.cpp:78-81`, `stubs.tpl`, `DFCIRPassesUtils.cpp:29-57` | the hardware meaning of C68, whose hypotheses allow floating-point types (`SizeOK`), in all kernels and formats (`float_units`), compared on kernels of doubles with `Ieee/Spec` (`Ieee/Hardware`) | C92 |
| inverse DCT | `examples/row_idct`, `examples/idct` | the same; specification: reference algorithm (`Flat/IdctSpec`), real-valued transform (`Flat/IdctExact`), error analysis (`Flat/Idct{Int,Real,Err,Acc}`) | C70-C72 |
| DFCIR text | `DFCIROperations.cpp/.td`, `DFCIRTypes.td`, `dfcir_builder.cpp` | token lists, printer, recursive-descent parser; generated code (`assemblyFormat`) and MLIR's attribute syntax by hand | C67 |

Plan per property:

* C01/C02: model `topSort` as `step` on (stack, checked counters, result, i); termination by a lexicographic measure
  (total number of unscanned channels plus stack size); invariant "every counted-off child is finished or on the stack".
  Statement: permutation of the nodes and sources-before-targets; failure iff some node unreachable.
* C03/C04/C05/C12: API calls as an inductive `Op`, `step : Kernel → Op → Outcome`; invariants by induction on histories.
* C06: fold vs simulator function, by cases on operator; the disagreeing cases as negated theorems.
* C07–C09: arithmetic on the storage types (`uint16_t`, `uint8_t`).
* C10/C11: the rebind operations as graph transformations; denotational value of a node (least solution over an
  acyclic graph) preserved.
* C13–C18: `runSim` as a fold over the node list; denotational evaluation relation as spec; induction over the order.
* C19–C23: `readInput`/`simulate` over lists of lines; buffer of 200 slots with out-of-range access as UB.
* C24: translation as a fold with a value map; evaluation of the op list vs simulator-independent node semantics.
* C25–C32: `asap` as a fold; feasibility, minimality, and the cycle-accurate delay semantics `hw n t = sem n (t - T n)`.
* C33/C34: layer/cascade assignment with the float comparison as an arbitrary oracle.
* C35–C42: `int8_t` index arithmetic; string injectivity; shift register semantics.
* C43–C47: exhaustive kernel evaluation where the domain is the whole finite table, algebra elsewhere; cipher
  round-trips by structural proofs over arbitrary keys.
* C48/C49: string case analysis; list functions.

## 3. Not modelled

* Memory management of the passes, the builder and MLIR (the front end's is modelled, C85); exceptions thrown out of `instance`.
* MLIR/CIRCT internals (1.110.0): the meaning of the FIRRTL primitives is written by hand in
  `Hw/Lower.lean` and `Flow/Model.lean`; (that of the Verilog text in `stubs.tpl`, also written by hand in `Hw/Stubs.lean`, follows from the
  semantics of Verilog in `Vlog/Spec.lean` by C80, two-valued: no `x` or `z`) pass manager, parser/printer, FIRRTL-to-Verilog and canonicalisation are trusted.
  ODS operand constraints are transcribed (`Flow/Verify.lean`); the verifier TableGen makes of them is trusted.
* lp_solve's algorithm: its answer is universally quantified (any return code, any rational vector; the positive theorems are for optimal
  solutions, extreme where integrality is needed).
* The floating-point hardware: the theorems about the simulator and the combinational pipeliner hold for any `double` and `float` operations
  (four sign laws where stated); C91 instantiates them with IEEE 754 (`Verif/Ieee`). That the C++ platform computes that (round to nearest, no x87
  excess precision, no `-ffast-math`) is trusted; which NaN an operation returns is fixed in the model and left open by the theorems.
* ctemplate (other than variables, sections and comments, `Tpl/Model`, written from its documentation), the file system (other than which file is written, C66, and
  which files are read, C90). Of CLI11 modelled is what its parser does with the options this program declares (`Cli/Model`); the texts it prints are not.
* Builds with `NDEBUG`: assertions are modelled as enabled. With `NDEBUG` `DFCIRLPUtils.cpp:47-52` also loses the side effects inside
  `assert(::add_column...)`, so the linear scheduler of a release build is another program.
  The build command of the README has `CMAKE_BUILD_TYPE=RelWithDebInfo`, which defines `NDEBUG` unless the LLVM found was itself built with
  assertions (`HandleLLVMOptions`, `CMakeLists.txt`). None of the other assertions of the sources has a side effect. `setObjective` is called before the columns
  exist (`DFCIRLinearSchedulerPass.cpp:132-134`): that lp_solve keeps such an objective is trusted.

## 4. Status and findings

### 4.1 Where things are

| directory | content |
|---|---|
| `Verif/TopSort` | C01, C02 |
| `Verif/Dfcxx` | types, constants, the API as a state machine (`World*.lean`: every graph-building call incl. nested instances; `Cmd`, `exec`, `Hist`), call effects (`Call*.lean`, C60), simulator (`Sim*.lean`), simulator I/O (`SimIO*.lean`), DFCIR builder (`Dfcir*.lean`) |
| `Verif/Sched` | dependency graph, ASAP, LP, combinational pipelining, buffer insertion, cycle semantics of delay networks, existence of runs |
| `Verif/Hw` | module names, stub texts, lowering of shifts, casts, bit operations |
| `Verif/Config` | latency configuration, names, output paths |
| `Verif/Std` | GF(2^8), Magma, Kuznechik as functions and against relational specifications of the RFCs |
| `Verif/Flow` | the whole tool chain: API history -> block -> schedule -> circuit (C58), simulation predicts hardware (C59), dialect verifier (C61), units (C38), the designs the compiler may produce (`Compiled.lean`) |
| `Verif/Kernels` | the constructors of the library kernels as code over the API (`Model.lean`), a Hoare logic for such code (`Base`, `Ops`, `OpRules`, `Ports`, `Bind`, `Inst`, `Rules`), and the kernels as compiled hardware (`Top`, `Props`, `Chain`; C62-C64, C73, C74) |
| `Verif/Flat` | example kernels without instances: constructors (`Model`), a Hoare logic with exact values, signed types, offsets and several outputs (`Base`, `Ops`, `Rules`, `Tac`), from code to hardware (`Top`), C69-C72 |
| `Verif/Dot` | the DOT writer (`compileDot` and its template) and C65; `Read`: specification reader, `ReadProps`, `Readable`, `ReadExamples`: C88 |
| `Verif/Json` | the JSON reader of the configuration files: C89 (`Exact`: which files are read, and what from them, without exception) |
| `Verif/Driver` | `hlsMain`, `Kernel::compile`, the pass list of `convertAndPrint`, with the stages as parameters; C66 |
| `Verif/Cli` | the command line: CLI11's parser on the declared options, the documented notation as specification, the whole program up to its stages; C75, C76 |
| `Verif/Whole` | the tool as a whole: all stage models as one instance of the driver; C78; `Process`: with the configuration files as bytes; C90 |
| `Verif/Ieee` | IEEE 754 binary floating point, and what it makes of the simulator, the combinational pipeliner and the JSON reader, and the floating-point hardware; C91, C92 |
| `Verif/Tpl` | the template engine; `dot.tpl` |
| `Verif/Vcd` | the text of the value change dump (`Model`), a reader of such files (`Spec`), `sim` mode as a whole; C79 |
| `Verif/Vlog` | the text of the stub library (`Model`), a reader and a semantics of the Verilog subset (`Spec`), circuits with the modules read from the text (`LibSpec`); C80 |
| `Verif/Sdf` | the scheduled DFCIR text: order of the lines, printing, reading, conversion of what was read; C81; kernels whose buffers fit (`Fit`), C82 |
| `Verif/Text` | the DFCIR text format: MLIR's lexer as far as the printed text needs it, printers and parsers of all operations and types of the dialect; soundness of the reader (`Sound`); C67 |

Specifications are in the files `*Spec.lean`, models in `*Model.lean`/`World.lean`/`Sim.lean`/`Dfcir.lean`, theorems in `*Props.lean`.

### 4.2 Trusted base, checked

`#print axioms` of every theorem named in `MANIFEST.json` gives a subset of `propext`, `Classical.choice`, `Quot.sound`.
No own axioms; no compiled evaluation.  Finite tables (S-boxes, Galois tables, opcode tables) are checked with `decide +kernel`, i.e. by
kernel reduction over the *whole* table.

### 4.3 Modelling decisions that matter

* `std::unordered_set/map` iteration order is arbitrary: theorems quantify over all enumerations (`Enumeration`).
* Node handles are numbers, never reused; a deleted node keeps its number but is not `Live`.
* Streams in hardware: cycle semantics with arbitrary power-up contents of every register and arbitrary values of multiplexers selected
  out of range; input ports arbitrary for every cycle.
* 8-bit operand indices, 16-bit latencies, 32-bit offsets, 64-bit simulator values wrap in the model as in the code.
* Operand evaluation order of C++ expressions such as `a.cast(t) + b.cast(t)` is unspecified; models of library kernels fix one order
  (left to right), results do not depend on it except for node numbering.

* Library kernels (C62-C64): every statement of the constructors is a call of the API model; loops are folds over the list of their indices;
  `instance` is begin, the callee's constructor, binding, transfer, as in `kernel.h:78-93`.  What is proved about them is stated with
  `Shows`/`Realizes` (Kernels/Top.lean): the constructor runs from the initial state, the result compiles, and *every* `Compiled` design shows
  the specified relation at its output in every run, and has runs.  The Kuznechik kernels are covered as top kernels only (constants live in
  kernel 0; inside another kernel the generic variant dereferences null, see 4.5).

* DFCIR text (C67): MLIR prints an operation that fails to verify in its generic form, so C67 assumes a kernel that passes the verifier (C61).
  Float attributes, discardable attributes, several kernels in a module and locations are not in the modelled syntax
  (`test/examples/movingaverage/movingaverage.mlir` uses the first two).  When the latency in brackets and the one in the attribute dictionary
  differ (an edited text), which one wins is a parameter `pick` of the parser; C67 holds for every `pick` that returns either of two equal
  latencies.  The texts of `test/examples/{movingsum,addconst,muxmul}` are reproduced by the model character for character (Text/Examples.lean).
* Signed constants wider than 64 bits are sign-extended (`IntegerAttr::get` of a signed type), unsigned and raw ones are not.

### 4.4 Properties false of the code

The MANIFEST entries with status *partial* are properties a user would expect that fail in general; the failure is proved as a theorem and the
largest true part is proved with suffix `_partial` (C06, C17, C20, C23, C30, C34, C35, C36, C38, C40, C42, C52-C55, C83, C88, C91, C92).

### 4.5 Other findings made while modelling

* The default of `hls` mode is combinational pipelining with 0 stages, which leaves `dfcir.offset` in place: a kernel with offsets does not compile
  without `-a` or `-l` (exit code 1, the files are created and left empty; C78).
* `sim` mode: an output file that cannot be opened is not noticed (exit code 0); if it is the input file, the input is emptied before it is
  read and the exit code is 0; stream names with blanks make the dump unreadable (C79).
* `rebindOutput` ignores `output->outputs`: an instance output read inside the instance dangles (C03).
* A pass-through instance output bound before its input leaves the caller's handle at a deleted node (C10).
* Constants bound as instance inputs when the caller is not the top kernel dereference null (C10); this includes the non-optimised Kuznechik
  encoder instantiated inside another instance.
* `constant.cat(stream)` inside a sub-kernel fails an assertion (constants live in kernel 0).
* Connecting an output twice makes `getConnection` return null: the output is emitted undriven (C24).
* `connect` checks neither types nor that its target is an output or an undefined variable; it accepts constants and inputs as targets.
* `connect` on a shallow variable leaves its operator NONE, `check()` still fails (C12).
* Unbound outputs of an instance stay outputs of the caller.
* `KernelStorage::addType`: the local `types` shadows the static; `graph.cpp:119-126` `resetNodeName` uses an iterator after `erase`.
* `DFCIRFloatType::getBitWidth` omits the sign bit (`DFCIRTypes.cpp:31-33`), `convertType` uses 1+e+f; floating-point units are generated as
  integer units (C92: 1.0 + 1.0 is 0x7FE0000000000000 in every design).
* `HlsOptions::fromJson` is empty: the `hls` section of the options is ignored. `simMain` never calls `check()`.
* `LatencyOp::parse` stores the latency in `LessOp::Properties`.
* The remainder operation is spelled `dfcir.red` (`DFCIROperations.td:411`); `test/examples/muxmul/muxmul.mlir` has a multiplexer of type
  `!dfcir.const`, which the API no longer builds.
* `print` of scheduled operations calls `getSInt()` on a signless attribute, which asserts in MLIR builds with assertions
  (`DFCIROperations.td:230, 347`).
  The model prints what a build without those assertions prints (C81).
* README recommends `RelWithDebInfo`; `HandleLLVMOptions` keeps assertions only if LLVM was built with them, so with a precompiled CIRCT
  the side effects inside `assert(::add_column...)` may be lost (see section 3). `setObjective` is called before the columns exist;
  if lp_solve forgets it, the answer is still a vertex of the constraints: C28, `vertex_compile_hw` and `vertex_compile_computes` do not depend on
  the objective, C83 and the exemption of C68 for kernels whose constants have mixed signs do.
* `--pipeline 2147483648`: `++delta` (`DFCIRPipelineUtils.cpp:252`) overflows; the theorems ask for fewer than 2^31 stages.
* The linear scheduler's objective counts distances from constants and scalar inputs, on which no buffer is ever placed, and its distance
  variables are bounded below by 0; both make it insert more registers than ASAP on some kernels (C83).
* The order of the module's ports depends on the enumeration of `startNodes`, a hash set of pointers; duplicate stream names and a stream named `clk`
  are accepted by the API and give two ports of one name (C84).  In the circuit model two input ports of one name see the same stream.
* Offsets whose sum leaves `int32_t`, or long kernels with long latencies, overflow in the schedulers (C82).
* Signed AND/OR/XOR/NOT: the explicit SInt result type is rejected by the FIRRTL verifier.
* The dialect rejects `~scalar`, `-scalar`, multiplexers selected by scalars or constants, offsets of non-streams, although the API and
  `check()` accept them (C61).
* Channel operand indices are `int8_t`: operations with more than 128 operands (Kuznechik's 257-operand multiplexers) have colliding and
  negative indices; harmless there because all but the select are constants, which are never buffered (C35, C58).
* `examples/kuznechik`: the local `S` starts one byte too high and duplicates the top byte; only the low 128 bits are used.
* Leaks (C85): `deleteVariable` forgets variables without deleting them; the connection of an instance output bound to a shallow variable is
  unlinked and never deleted (graph.cpp:158); types are never deleted (`addType` searches a local set that shadows the static one).
* A kernel or port named like a keyword of DOT (`node`, `Edge`, `graph`, ...) makes the DOT file unreadable; a port called `node0` is merged with the
  node the tool gives that name (C65, C88).
* Configuration files (C89): `true` is latency 1, -1 is 65535, 70000 is 4464, 1e9 is undefined behaviour; an array or a number in place of the
  object configures nothing, silently; a file that is not JSON, or a value that is not a number, ends the program with an uncaught exception
  (main.cpp:73-78 catches `CLI::ParseError` only); a zero byte ends the file; `external` is converted, can be fatal, and is never used. With an unusable config.json
  even `--help` ends with the exception (C90).
* Floating point in the simulator (C91): comparisons look at the type of their result, which is boolean, and so compare the bits of floating-point
  operands as unsigned integers: -1 < 1 is 0, NaN == NaN is 1, 0 == -0 is 0. Every `dfFloat(e, m)` is computed as binary64: in binary32, 1 + 1 is 1.7e38.
  `constant.var(dfFloat(11, 52), int64_t(1))` is 2^-1074: the literal is stored, not converted.
* Kernel objects side by side (C86): the constants of the younger kernel go to the graph of the older one; destroying the older first leaves
  `KernelMeta::top` null and `kernelStack.front()` dangling.

### 4.6 Wrong programs that break no claim

Seeded edits that are expected to prove (they do not change any claimed behaviour): reuse of the value table between simulator ticks;
`insertBuffer` testing `b < 0` for `b <= 0`; inverting the weights of the LP objective (weights only affect cost, C28 holds for every objective);
an additional register after a *latency-0* binary output is caught; `kL` applied 15 times breaks C57, not the inversion property C46.
